/-
The default colors of complex images: the table `cm_data` and its interpolation (`tools/plotting/plotting.py:58-75,1318-1575`).
-/
import Verif.Model.Plotting

namespace Cdtools.Plot

/-- `cm_data`, `plotting.py:1318-1573`, in units of `1e-8`. -/
def cmData : List (ℕ × ℕ × ℕ) :=
  [(65830839, 46993917, 4941288), (66433742, 46620190, 5766473), (67020869, 46248014, 6534560),
   (67604299, 45869838, 7273174), (68175228, 45491407, 7979262), (68740280, 45108417, 8667103),
   (69295050, 44723893, 9335869), (69842619, 44335768, 9992839), (70381230, 43945328, 10638710),
   (70912069, 43551765, 11277174), (71434524, 43155576, 11909348), (71949289, 42756272, 12537606),
   (72455619, 42354470, 13162325), (72954895, 41949098, 13786305), (73445172, 41541774, 14408039),
   (73929496, 41129973, 15032217), (74403834, 40717158, 15654335), (74873695, 40298519, 16282282),
   (75332319, 39880107, 16907566), (75788083, 39454245, 17542179), (76233260, 39028096, 18175915),
   (76673205, 38596549, 18816819), (77105247, 38162141, 19461532), (77529528, 37724732, 20110652),
   (77948666, 37281509, 20768730), (78358534, 36836772, 21429736), (78763763, 36385400, 22101648),
   (79161134, 35930804, 22779740), (79550606, 35472990, 23464353), (79935398, 35007959, 24161832),
   (80311671, 34540152, 24865892), (80681033, 34067452, 25580075), (81044520, 33588248, 26307222),
   (81399680, 33105538, 27043183), (81747689, 32617526, 27791096), (82089415, 32122629, 28553846),
   (82422713, 31623620, 29327617), (82747661, 31120154, 30113388), (83066399, 30608459, 30917579),
   (83376307, 30092244, 31734921), (83677286, 29571346, 32566199), (83969693, 29044723, 33413665),
   (84253873, 28511151, 34279962), (84528297, 27972917, 35162078), (84792704, 27430045, 36060681),
   (85046793, 26882624, 36976395), (85291056, 26328859, 37913116), (85524200, 25770888, 38868217),
   (85745673, 25209367, 39841601), (85955023, 24644737, 40833625), (86151767, 24077563, 41844557),
   (86335392, 23508521, 42874606), (86505685, 22937288, 43926008), (86661606, 22366308, 44996127),
   (86802578, 21796785, 46084758), (86928003, 21230132, 47191554), (87037274, 20667988, 48316015),
   (87129781, 20112240, 49457479), (87204914, 19565041, 50615118), (87262076, 19028829, 51787932),
   (87300686, 18506334, 52974750), (87320190, 18000588, 54174232), (87320066, 17514920, 55384874),
   (87299833, 17052942, 56605016), (87259058, 16618514, 57832856), (87197361, 16215698, 59066466),
   (87114414, 15848667, 60303881), (87009966, 15521687, 61542844), (86883823, 15238892, 62781175),
   (86735858, 15004199, 64016651), (86566010, 14821149, 65247022), (86374282, 14692762, 66470043),
   (86160744, 14621386, 67683495), (85925523, 14608582, 68885204), (85668805, 14655046, 70073065),
   (85390829, 14760576, 71245054), (85091881, 14924094, 72399250), (84772287, 15143717, 73533849),
   (84432409, 15416865, 74647174), (84072639, 15740403, 75737678), (83693394, 16110786, 76803952),
   (83295108, 16524205, 77844723), (82878232, 16976729, 78858858), (82443225, 17464414, 79845360),
   (81990551, 17983400, 80803365), (81520674, 18529984, 81732140), (81034059, 19100664, 82631073),
   (80531176, 19692160, 83499645), (80012467, 20301465, 84337486), (79478367, 20925826, 85144320),
   (78929302, 21562737, 85919957), (78365681, 22209936, 86664294), (77787898, 22865386, 87377308),
   (77196330, 23527265, 88059043), (76591335, 24193947, 88709606), (75973250, 24863985, 89329158),
   (75342394, 25536094, 89917908), (74699063, 26209137, 90476105), (74043533, 26882110, 91004033),
   (73376055, 27554128, 91502000), (72696862, 28224415, 91970339), (72006160, 28892290, 92409395),
   (71304134, 29557159, 92819525), (70590945, 30218508, 93201090), (69866732, 30875887, 93554451),
   (69131609, 31528914, 93879964), (68385669, 32177259, 94177976), (67628980, 32820641, 94448822),
   (66861590, 33458824, 94692818), (66083524, 34091610, 94910264), (65294785, 34718834, 95101432),
   (64495358, 35340362, 95266571), (63685208, 35956083, 95405900), (62864284, 36565910, 95519608),
   (62032517, 37169770, 95607853), (61189825, 37767607, 95670757), (60336117, 38359374, 95708408),
   (59471291, 38945030, 95720861), (58595242, 39524541, 95708134), (57707860, 40097871, 95670212),
   (56809041, 40664983, 95607045), (55898686, 41225834, 95518556), (54976709, 41780374, 95404636),
   (54043040, 42328541, 95265153), (53097635, 42870263, 95099953), (52140479, 43405447, 94908866),
   (51171597, 43933988, 94691713), (50191056, 44455757, 94448311), (49198981, 44970607, 94178481),
   (48195555, 45478367, 93882055), (47181035, 45978843, 93558888), (46155756, 46471821, 93208866),
   (45119801, 46957218, 92831786), (44073852, 47434688, 92427669), (43018722, 47903864, 91996620),
   (41955166, 48364440, 91538759), (40884063, 48816094, 91054293), (39806421, 49258494, 90543523),
   (38723377, 49691301, 90006852), (37636206, 50114173, 89444794), (36546127, 50526840, 88857877),
   (35454654, 50928980, 88246819), (34363779, 51320158, 87612664), (33275309, 51700082, 86956409),
   (32191166, 52068487, 86279166), (31113372, 52425144, 85582152), (30044040, 52769862, 84866679),
   (28985326, 53102505, 84134123), (27939616, 53422931, 83386051), (26909181, 53731099, 82623984),
   (25896300, 54027020, 81849475), (24903239, 54310763, 81064090), (23932229, 54582448, 80269392),
   (22985664, 54842189, 79467122), (22065510, 55090241, 78658706), (21173641, 55326901, 77845533),
   (20311843, 55552489, 77028973), (19481720, 55767365, 76210318), (18684660, 55971922, 75390763),
   (17921799, 56166586, 74571407), (17194220, 56351747, 73753498), (16502295, 56527915, 72937754),
   (15846116, 56695600, 72124819), (15225499, 56855297, 71315321), (14639876, 57007506, 70509769),
   (14088284, 57152729, 69708554), (13569366, 57291467, 68911948), (13081385, 57424211, 68120108),
   (12622247, 57551447, 67333078), (12189539, 57673644, 66550792), (11780654, 57791235, 65773233),
   (11392613, 57904680, 64999984), (11022348, 58014398, 64230637), (10666732, 58120782, 63464733),
   (10322631, 58224198, 62701729), (9986970, 58324982, 61941001), (9656813, 58423445, 61181853),
   (9329429, 58519864, 60423523), (9002364, 58614483, 59665190), (8673514, 58707512, 58905979),
   (8341199, 58799127, 58144971), (8004245, 58889466, 57381211), (7662083, 58978633, 56613714),
   (7314852, 59066692, 55841474), (6963541, 59153670, 55063471), (6610144, 59239556, 54278681),
   (6257861, 59324304, 53486082), (5911304, 59407833, 52684614), (5576765, 59490030, 51873220),
   (5262511, 59570732, 51050978), (4978881, 59649750, 50216936), (4738319, 59726862, 49370174),
   (4555067, 59801813, 48509809), (4444396, 59874316, 47635000), (4421323, 59944056, 46744951),
   (4498918, 60010687, 45838913), (4686604, 60073837, 44916187), (4988979, 60133103, 43976125),
   (5405573, 60188055, 43018120), (5932209, 60238289, 42040543), (6560774, 60283258, 41043772),
   (7281962, 60322442, 40027363), (8086177, 60355283, 38990941), (8964366, 60381194, 37934208),
   (9908952, 60399554, 36856412), (10914617, 60409695, 35755799), (11974119, 60410858, 34634096),
   (13082746, 60402280, 33491416), (14238003, 60383119, 32326700), (15438470, 60352425, 31138823),
   (16679093, 60309301, 29931029), (17959757, 60252668, 28702370), (19279966, 60181364, 27452964),
   (20634465, 60094466, 26187940), (22027287, 59990430, 24904251), (23449833, 59868591, 23611022),
   (24904416, 59727460, 22307780), (26382006, 59566656, 21004673), (27881040, 59385210, 19705484),
   (29391494, 59183348, 18421621), (30906340, 58961302, 17161942), (32415577, 58720132, 15937753),
   (33910590, 58461164, 14759012), (35379624, 58186793, 13637734), (36817905, 57898610, 12580054),
   (38215966, 57599512, 11595040), (39572824, 57290928, 10685038), (40881926, 56975727, 9855521),
   (42148106, 56654159, 9104002), (43364953, 56329296, 8434116), (44538908, 56000859, 7841305),
   (45672421, 55669430, 7322913), (46765017, 55336373, 6876762), (47819138, 55002130, 6498436),
   (48839686, 54666195, 6182163), (49828924, 54328740, 5922726), (50789114, 53989827, 5714466),
   (51722475, 53649429, 5551476), (52631150, 53307443, 5427793), (53517186, 52963707, 5337567),
   (54382515, 52618009, 5275208), (55228947, 52270103, 5235479), (56058163, 51919713, 5213560),
   (56871719, 51566545, 5205062), (57671045, 51210292, 5206020), (58457450, 50850636, 5212851),
   (59232129, 50487256, 5222299), (59996170, 50119827, 5231367), (60750568, 49748022, 5237234),
   (61496232, 49371512, 5237168), (62233999, 48989963, 5228423), (62964652, 48603032, 5208127),
   (63688935, 48210362, 5173155), (64407572, 47811570, 5119960), (65121289, 47406244, 5044367),
   (65830839, 46993917, 4941288)]

/-- `cm_data[::-1, channel]`. -/
noncomputable def cmRow (i : ℕ) (channel : Fin 3) : ℝ :=
  let r := cmData.reverse.getD i (0, 0, 0)
  (![(r.1 : ℝ), (r.2.1 : ℝ), (r.2.2 : ℝ)] channel) / 1e8

/-- `np.interp(x, np.linspace(0, 360, cm_data.shape[0]), cm_data[::-1, channel])`, `plotting.py:68-70`, for `0 ≤ x < 360`: linear
between the two nearest of the 256 nodes. -/
noncomputable def cmPhase (x : ℝ) (channel : Fin 3) : ℝ :=
  let u := x * 255 / 360
  let i := ⌊u⌋₊
  cmRow i channel + (cmRow (i + 1) channel - cmRow i channel) * (u - i)

end Cdtools.Plot
