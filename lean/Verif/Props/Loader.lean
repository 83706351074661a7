/- Property theorems C07–C09: exposures of an epoch, loader arguments, learning rates. -/
import Verif.Model.Loader
import Verif.Lemmas.Chunks
import Mathlib.Data.List.Perm.Basic
import Mathlib.Tactic.NormNum

namespace Cdtools

/-! ### C07 -/

/-- Which exposures the user asked for: the `subset` argument read as documented. -/
def requested (n : ℕ) : SubsetArg → List ℕ
  | .none => List.range n
  | .one i => [i]
  | .many l => l

theorem loaderEpoch_flatten {E : Type} (cfg : LoaderCfg) (hb : 1 ≤ cfg.batch) (data : List E)
    (arg : SubsetArg) (perm : List ℕ) :
    (loaderEpoch cfg data arg perm).flatten =
      (samplerOrder cfg.shuffle perm (selectIndices data.length arg).length).map
        fun pos => (selectIndices data.length arg)[pos]?.bind fun i => data[i]? := by
  unfold loaderEpoch epochBatches loaderBatches
  simp only
  rw [← List.map_flatten, pyChunks_flatten _ _ hb _ (le_refl _)]

theorem map_range_getElem? {α : Type} (l : List α) :
    (List.range l.length).map (fun i => l[i]?) = l.map some := by
  apply List.ext_getElem
  · simp
  · intro i h1 h2
    simp at h1 h2
    simp [h1]

/-- **C07.** One epoch hands the model every requested exposure exactly as often as it was
requested — so exactly once for the whole dataset, an int, or a list without repeats — whether
or not the loader shuffles, and whatever permutation the shuffle draws. -/
theorem epoch_uses_each_exposure_once {E : Type} (cfg : LoaderCfg) (hb : 1 ≤ cfg.batch)
    (data : List E) (arg : SubsetArg) (perm : List ℕ)
    (hperm : perm.Perm (List.range (requested data.length arg).length)) :
    (loaderEpoch cfg data arg perm).flatten.Perm
      ((requested data.length arg).map fun i => data[i]?) := by
  have hreq : selectIndices data.length arg = requested data.length arg := by
    cases arg <;> rfl
  rw [loaderEpoch_flatten cfg hb, hreq]
  have h : (samplerOrder cfg.shuffle perm (requested data.length arg).length).Perm
      (List.range (requested data.length arg).length) := by
    unfold samplerOrder; split
    · exact hperm
    · exact List.Perm.refl _
  refine (h.map _).trans ?_
  have := congrArg (List.map (fun o : Option ℕ => o.bind fun i => data[i]?))
    (map_range_getElem? (requested data.length arg))
  simp only [List.map_map, Function.comp_def, Option.bind_some] at this
  rw [this]

/-- **C07**, whole dataset: the exposures of an epoch are the dataset, up to order. -/
theorem epoch_uses_whole_dataset {E : Type} (cfg : LoaderCfg) (hb : 1 ≤ cfg.batch)
    (data : List E) (perm : List ℕ) (hperm : perm.Perm (List.range data.length)) :
    (loaderEpoch cfg data .none perm).flatten.Perm (data.map some) := by
  have := epoch_uses_each_exposure_once cfg hb data .none perm (by simpa [requested] using hperm)
  simpa [requested, map_range_getElem?] using this

/-- **C07**, without shuffling the exposures come in the requested order. -/
theorem unshuffled_epoch_in_order {E : Type} (cfg : LoaderCfg) (hb : 1 ≤ cfg.batch)
    (hs : cfg.shuffle = false) (data : List E) (arg : SubsetArg) (perm : List ℕ) :
    (loaderEpoch cfg data arg perm).flatten =
      (requested data.length arg).map fun i => data[i]? := by
  have hreq : selectIndices data.length arg = requested data.length arg := by
    cases arg <;> rfl
  rw [loaderEpoch_flatten cfg hb, hreq]
  have := congrArg (List.map (fun o : Option ℕ => o.bind fun i => data[i]?))
    (map_range_getElem? (requested data.length arg))
  simp only [List.map_map, Function.comp_def, Option.bind_some] at this
  simp only [samplerOrder, hs, Bool.false_eq_true, if_false, this]

/-- **C07**, batch sizes: minibatch `k` has `batch` exposures unless it is the last one, which
holds what is left over (at least one). -/
theorem epoch_batch_sizes {E : Type} (cfg : LoaderCfg) (hb : 1 ≤ cfg.batch)
    (data : List E) (arg : SubsetArg) (perm : List ℕ)
    (hperm : perm.Perm (List.range (requested data.length arg).length)) (k : ℕ)
    (hk : k < (loaderEpoch cfg data arg perm).length) :
    ((loaderEpoch cfg data arg perm)[k]).length =
      min cfg.batch ((requested data.length arg).length - k * cfg.batch) ∧
    1 ≤ ((loaderEpoch cfg data arg perm)[k]).length ∧
    (k + 1 < (loaderEpoch cfg data arg perm).length →
      ((loaderEpoch cfg data arg perm)[k]).length = cfg.batch) := by
  have hreq : selectIndices data.length arg = requested data.length arg := by
    cases arg <;> rfl
  have hlen : (samplerOrder cfg.shuffle perm (requested data.length arg).length).length
      = (requested data.length arg).length := by
    unfold samplerOrder; split
    · simpa using hperm.length_eq
    · simp
  have hn : (loaderEpoch cfg data arg perm).length =
      ((requested data.length arg).length + cfg.batch - 1) / cfg.batch := by
    simp [loaderEpoch, epochBatches, loaderBatches, pyChunks_length, hreq, hlen]
  have hkl : ((loaderEpoch cfg data arg perm)[k]).length =
      min cfg.batch ((requested data.length arg).length - k * cfg.batch) := by
    simp only [loaderEpoch, epochBatches, loaderBatches, pyChunks, pyRange0, List.getElem_map,
      List.getElem_range, List.length_map, pySlice, List.length_drop, List.length_take, hreq, hlen]
    omega
  have key : ∀ j, j < (loaderEpoch cfg data arg perm).length →
      j * cfg.batch + 1 ≤ (requested data.length arg).length := by
    intro j hj
    rw [hn] at hj
    have h1 : (j + 1) * cfg.batch ≤ (requested data.length arg).length + cfg.batch - 1 := by
      rw [← Nat.le_div_iff_mul_le (by omega)]; omega
    rw [Nat.succ_mul] at h1
    omega
  refine ⟨hkl, ?_, ?_⟩
  · have := key k hk
    rw [hkl]; omega
  · intro h
    have := key (k + 1) h
    rw [Nat.succ_mul] at this
    rw [hkl]; omega

/-- Non-vacuity: five exposures, a subset of three, batches of two, a real shuffle. -/
example : (loaderEpoch ⟨2, true⟩ ["a", "b", "c", "d", "e"] (.many [4, 0, 2]) [2, 0, 1])
    = [[some "c", some "e"], [some "a"]] ∧
    [2, 0, 1].Perm (List.range (requested 5 (.many [4, 0, 2])).length) := by
  constructor
  · decide
  · decide

/-! ### C08 -/

/-- The full claim of C08 for one way of running an optimizer: a positive batch size and the
shuffle flag are used as given. -/
def HonoursLoaderArgs (f : Option ℤ → Bool → Except PyExc LoaderCfg) : Prop :=
  ∀ (b : ℤ) (s : Bool), 1 ≤ b → f (some b) s = .ok ⟨b.toNat, s⟩

/-- **C08, Adam part.** Positive batch sizes and both shuffle settings are honoured by
`AdamReconstructor.optimize`, and its defaults (15, shuffled) work. -/
theorem adam_honours_loader_args_partial :
    HonoursLoaderArgs (fun b s => adamOptimizeLoader b none s) ∧
    adamOptimizeLoader = .ok ⟨15, true⟩ ∧ modelAdamLoader = .ok ⟨15, true⟩ ∧
    ∀ b : ℤ, 1 ≤ b → modelAdamLoader (some b) = .ok ⟨b.toNat, true⟩ := by
  refine ⟨?_, rfl, rfl, ?_⟩
  · intro b s h
    simp only [adamOptimizeLoader, baseOptimizeLoader, setupDataloader]
    rw [if_neg (by omega)]
  · intro b h
    simp only [modelAdamLoader, adamOptimizeLoader, baseOptimizeLoader, setupDataloader]
    rw [if_neg (by omega)]

/-- **C08, custom loaders** are used exactly as given, and non-positive batch sizes are refused. -/
theorem custom_loader_used (b : Option ℤ) (c : LoaderCfg) (s : Bool) :
    adamOptimizeLoader b (some c) s = .ok c ∧
    ∀ z : ℤ, z ≤ 0 → adamOptimizeLoader (some z) none s = .error .valueError := by
  refine ⟨rfl, ?_⟩
  intro z h
  simp only [adamOptimizeLoader, baseOptimizeLoader, setupDataloader]
  rw [if_pos h]

/-- **C08, LBFGS part.** LBFGS uses one batch holding the whole (non-empty) dataset. -/
theorem lbfgs_single_batch {E : Type} (data : List E) (arg : SubsetArg)
    (h : 1 ≤ (requested data.length arg).length) (perm : List ℕ)
    (hperm : perm.Perm (List.range (requested data.length arg).length)) :
    ∃ cfg, modelLbfgsLoader (requested data.length arg).length = .ok cfg ∧
      (loaderEpoch cfg data arg perm).length = 1 := by
  refine ⟨⟨(requested data.length arg).length, true⟩, ?_, ?_⟩
  · simp only [modelLbfgsLoader, lbfgsOptimizeLoader, baseOptimizeLoader, setupDataloader]
    rw [if_neg (by omega)]; simp
  · have hl : perm.length = (requested data.length arg).length := by
      simpa using hperm.length_eq
    simp only [loaderEpoch, epochBatches, loaderBatches, samplerOrder, if_true, List.length_map,
      pyChunks_length, hl]
    rw [Nat.div_eq_of_lt_le] <;> omega

/-- **C08, SGD part.** SGD honours the batch size but always shuffles. -/
theorem sgd_honours_batch_partial (b : ℤ) (s : Bool) (h : 1 ≤ b) :
    sgdOptimizeLoader (some b) s = .ok ⟨b.toNat, true⟩ := by
  simp only [sgdOptimizeLoader, baseOptimizeLoader, setupDataloader]
  rw [if_neg (by omega)]

/-- **C08 is violated.** `SGDReconstructor.optimize` ignores `shuffle=False`; `batch_size=None`
raises AttributeError in every optimizer that reaches `setup_dataloader`; the default call of
`model.SGD_optimize` is such a call. -/
theorem loader_args_violated :
    ¬ HonoursLoaderArgs (fun b s => sgdOptimizeLoader b s) ∧
    (∀ s, adamOptimizeLoader none none s = .error .attributeError) ∧
    (∀ s, setupDataloader none s = .error .attributeError) ∧
    modelSgdLoader = .error .attributeError := by
  refine ⟨?_, fun _ => rfl, fun _ => rfl, rfl⟩
  intro h
  have := h 3 false (by norm_num)
  revert this; decide

/-! ### C09 -/

/-- The dictionary in force after a history: the one given to the constructor unless a later
call supplied another. -/
def currentFactors (init : List (String × ℝ)) : List LrOp → List (String × ℝ)
  | [] => init
  | .adjust _ (some f) :: ops => currentFactors f ops
  | .adjust _ none :: ops => currentFactors init ops
  | .reduce _ :: ops => currentFactors init ops

/-- The factor a dictionary gives a parameter (1 if it is not named). A Python dict has unique
keys, so the first entry is the entry. -/
noncomputable def factorOf (d : List (String × ℝ)) (name : String) : ℝ :=
  (d.lookup name).getD 1

/-- Run a history from a freshly built reconstructor. -/
noncomputable def afterOps (names : List String) (defaultLr : ℝ) (init : List (String × ℝ))
    (ops : List LrOp) : LrState :=
  ops.foldl LrOp.apply (initReconstructor names defaultLr init)

theorem apply_names (s : LrState) (op : LrOp) :
    (op.apply s).groups.map (·.name) = s.groups.map (·.name) := by
  cases op with
  | adjust lr f => cases f <;> simp [LrOp.apply, adjustOptimizer, setLrFactors, Function.comp_def]
  | reduce c => simp [LrOp.apply, Function.comp_def]

theorem foldl_names (s : LrState) (ops : List LrOp) :
    (ops.foldl LrOp.apply s).groups.map (·.name) = s.groups.map (·.name) := by
  induction ops generalizing s with
  | nil => rfl
  | cons op ops ih => rw [List.foldl_cons, ih, apply_names]

theorem foldl_factors (s : LrState) (ops : List LrOp) :
    (ops.foldl LrOp.apply s).factors = currentFactors s.factors ops := by
  induction ops generalizing s with
  | nil => rfl
  | cons op ops ih =>
    rw [List.foldl_cons, ih]
    cases op with
    | adjust lr f =>
      cases f <;> simp [LrOp.apply, adjustOptimizer, setLrFactors, currentFactors]
    | reduce c => simp [LrOp.apply, currentFactors]

theorem groupLr_eq (d : List (String × ℝ)) (lr : ℝ) (n : String) :
    groupLr d lr n = lr * factorOf d n := by
  unfold groupLr factorOf
  cases d.lookup n <;> simp

/-- **C09.** After any history of calls and scheduler reductions, the next call leaves one rate
per named parameter, in order, equal to `lr` times the factor in the dictionary most recently
supplied (1 if that dictionary does not name it); `lr_factors=None` keeps the dictionary. -/
theorem learning_rates_follow_last_dictionary (names : List String) (defaultLr : ℝ)
    (init : List (String × ℝ)) (ops : List LrOp) (lr : ℝ) (f : Option (List (String × ℝ))) :
    (afterOps names defaultLr init (ops ++ [.adjust lr f])).groups =
      names.map fun n => ⟨n, lr * factorOf (f.getD (currentFactors init ops)) n⟩ := by
  unfold afterOps
  rw [List.foldl_append, List.foldl_cons, List.foldl_nil]
  set s := ops.foldl LrOp.apply (initReconstructor names defaultLr init) with hs
  have hn : s.groups.map (·.name) = names := by
    rw [hs, foldl_names]; simp [initReconstructor, setLrFactors, Function.comp_def]
  have hf : s.factors = currentFactors init ops := by
    rw [hs, foldl_factors]; rfl
  have : (LrOp.apply s (.adjust lr f)).groups
      = s.groups.map fun g => ⟨g.name, lr * factorOf (f.getD (currentFactors init ops)) g.name⟩ := by
    cases f <;> simp [LrOp.apply, adjustOptimizer, setLrFactors, groupLr_eq, hf]
  rw [this, ← hn, List.map_map]
  rfl

/-- **C09** (schedulers): after any history, a call and then any number of reductions by a scheduler, every rate is the one of the call times the
product of the reduction factors; the ratios between the parameters stay as given. -/
theorem learning_rates_after_reductions (names : List String) (defaultLr : ℝ)
    (init : List (String × ℝ)) (ops : List LrOp) (lr : ℝ) (f : Option (List (String × ℝ))) (cs : List ℝ) :
    (afterOps names defaultLr init (ops ++ [.adjust lr f] ++ cs.map .reduce)).groups =
      names.map fun n => ⟨n, lr * factorOf (f.getD (currentFactors init ops)) n * cs.prod⟩ := by
  have hred : ∀ (cs : List ℝ) (s : LrState), ((cs.map LrOp.reduce).foldl LrOp.apply s).groups =
      s.groups.map fun g => ⟨g.name, g.lr * cs.prod⟩ := by
    intro cs
    induction cs with
    | nil => intro s; simp
    | cons c cs ih =>
      intro s
      rw [List.map_cons, List.foldl_cons, ih]
      simp only [LrOp.apply, List.map_map, List.prod_cons]
      refine List.map_congr_left fun g _ => ?_
      simp only [Function.comp_apply, mul_assoc]
  have h := learning_rates_follow_last_dictionary names defaultLr init ops lr f
  unfold afterOps at h ⊢
  rw [List.foldl_append, hred, h, List.map_map]
  rfl

/-- **C09**, warnings: a supplied dictionary is warned about exactly for its keys that are not
parameter names, and those keys change no learning rate. -/
theorem unknown_factors_warn_and_do_nothing (names : List String) (defaultLr : ℝ)
    (init : List (String × ℝ)) (ops : List LrOp) (lr : ℝ) (f : List (String × ℝ)) (k : String) :
    (k ∈ (afterOps names defaultLr init (ops ++ [.adjust lr (some f)])).warned ↔
      k ∈ f.map (·.1) ∧ k ∉ names) ∧
    (afterOps names defaultLr init (ops ++ [.adjust lr (some f)])).groups =
      (afterOps names defaultLr init
        (ops ++ [.adjust lr (some (f.filter fun e => e.1 ∈ names))])).groups := by
  constructor
  · unfold afterOps
    rw [List.foldl_append, List.foldl_cons, List.foldl_nil]
    set s := ops.foldl LrOp.apply (initReconstructor names defaultLr init) with hs
    have hn : s.groups.map (·.name) = names := by
      rw [hs, foldl_names]; simp [initReconstructor, setLrFactors, Function.comp_def]
    simp [LrOp.apply, adjustOptimizer, setLrFactors, hn]
  · rw [learning_rates_follow_last_dictionary, learning_rates_follow_last_dictionary]
    apply List.map_congr_left
    intro n hnmem
    have : (f.filter fun e => decide (e.1 ∈ names)).lookup n = f.lookup n := by
      induction f with
      | nil => rfl
      | cons e es ih =>
        by_cases he : e.1 ∈ names
        · rw [List.filter_cons_of_pos (by simpa using he), List.lookup_cons, List.lookup_cons, ih]
        · rw [List.filter_cons_of_neg (by simpa using he), ih, List.lookup_cons]
          have : (n == e.1) = false := by
            rw [beq_eq_false_iff_ne]; rintro rfl; exact he hnmem
          rw [this]
    simp only [Option.getD_some, factorOf, this]

/-- Non-vacuity: factors set at construction persist through a scheduler reduction and an
adjustment without factors, and are replaced (not merged) by a new dictionary. -/
example : (afterOps ["probe", "obj"] (1/1000) [("probe", 2)]
      ([.reduce (1/2)] ++ [.adjust 3 none])).groups = [⟨"probe", 6⟩, ⟨"obj", 3⟩] ∧
    (afterOps ["probe", "obj"] (1/1000) [("probe", 2)]
      ([.adjust 3 none] ++ [.adjust 5 (some [("obj", 4)])])).groups
        = [⟨"probe", 5⟩, ⟨"obj", 20⟩] := by
  rw [learning_rates_follow_last_dictionary, learning_rates_follow_last_dictionary]
  constructor <;> simp [factorOf, currentFactors, List.lookup] <;> norm_num

end Cdtools
