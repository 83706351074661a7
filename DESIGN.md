# DESIGN — a Lean 4 model of cdtools

## Trusted base

* **Lean 4.33.0's kernel** and the three standard axioms `propext`, `Classical.choice` and `Quot.sound`. Every
  theorem in `MANIFEST.json` depends on a subset of these three (those about ℝ and ℂ on all three); no axiom is
  declared here and no proof rests on compiled evaluation.
* **The reading of the Python source.** Each definition in `lean/Verif/Model/` cites the file and the lines of
  `/repo` it models, and says where it simplifies. Nothing checks that reading mechanically. The theorems in
  `seeded/LOG.jsonl` were tested against wrong programs: each line is an edit of the model, the claim it breaks and the
  theorems that stopped proving.
* **Library semantics taken as given**, as definitions in the model:
  - floating point numbers are exact real or complex numbers: rounding, overflow and `inf` are outside the model (the
    CXI model keeps the casts to single precision as an uninterpreted idempotent function); `NaN` appears where a
    property is about it, usually as `none`;
  - `torch.fft.fft2/ifft2` are the DFT sums over `ZMod n × ZMod m`; `fftshift`/`ifftshift` are rolls by `n//2` and
    `-(n//2)`; `avg_pool2d(k)` is the mean over complete k×k blocks; `grid_sample` is bilinear interpolation with zeros
    outside; slices, `round` (half to even), `median`, `histogram` as documented;
  - autograd accumulates gradients, `zero_grad` clears them, `optimizer.step(closure)` evaluates the closure and returns
    its first value; the parameter update itself is an arbitrary function of parameters, gradient and optimizer state;
  - `torch.utils.data.DataLoader` cuts the index list of its sampler (an arbitrary permutation when shuffling) into
    consecutive batches;
  - `torch.linalg.svd`, `qr` and `numpy.linalg.eigh` are any functions that meet their contracts (`structure LinAlg`);
    `linAlg_exists` proves that such functions exist, so that the theorems are not vacuous;
  - `scipy.optimize.minimize` is an arbitrary function; where a minimizer is needed the theorem assumes it, and says so;
  - `scipy.spatial.ConvexHull` is a parameter (the area of the scan, or none when it fails);
  - h5py groups are finite maps from names to datasets or groups; `queue.Queue.get` blocks while the queue is empty;
    a Python `dict` is an insertion-ordered finite map; matplotlib is a table of open figures by title, with a callback
    registry per canvas.

## What is modelled

| file in `Model/` | code |
|---|---|
| `Reconstructor`, `Loader`, `History`, `Threading` | `reconstructors/*.py`, `models/base.py` (Adam/LBFGS/SGD_optimize): the minibatch closure, data loading, the epoch loop as a generator, schedulers, learning rate factors, the worker thread |
| `Checkpoint` | checkpoints, `save_on_exit`, `save_on_exception` |
| `NestedDict`, `Cxi` | `tools/data/data.py`: nested dictionaries ↔ HDF5, all CXI readers and writers |
| `Dataset`, `PtychoDataset`, `Image` | `datasets/*.py`: construction, indexing, split, pad, downsample, filters, to/from CXI |
| `Losses`, `Measurements` | `tools/losses`, `tools/measurements` |
| `Fourier`, `HighNA` | `tools/propagators` |
| `ImageProc` | `tools/image_processing` |
| `Interactions`, `Initializers` | `tools/interactions`, `tools/initializers` |
| `Analysis`, `ReconSets`, `StdSets` | `tools/analysis` |
| `PlotLists` | the plot lists of all models |
| `FancyFromDataset` | `FancyPtycho.from_dataset` as a whole |
| `MultisliceFromDataset` | `MultislicePtycho.from_dataset` as a whole |
| `BraggFromDataset` | `Bragg2DPtycho.from_dataset` as a whole |
| `DatasetBridge` | what `FancyPtycho.from_dataset` reads of a `Ptycho2DDataset` |
| `Inspect` | `models/base.py`: `inspect` |
| `Batch` | `models/fancy_ptycho.py` 544-672, `tools/interactions/interactions.py` 438-502, `tools/measurements/measurements.py` 130-219 on batches |
| `LossArrays` | `tools/losses/losses.py` 57-80, 108-113, 162-174, 206-224, 293-311, 369-376 on arrays; `reconstructors/base.py` 161-215 |
| `Descent` | `reconstructors/adam.py` 51-68, 107-146, `reconstructors/sgd.py` 51-68, 117-163, `reconstructors/base.py` 161-227; the update rules of `torch.optim.Adam` and `torch.optim.SGD` are contracts |
| `FancySteps` | `models/fancy_ptycho.py` 140-187 (named parameters), `reconstructors/adam.py` 51-68, `reconstructors/sgd.py` 51-68, `reconstructors/base.py` 161-227 for FancyPtycho |
| `Training2D` | `models/multislice_2d_ptycho.py` 98-176, 327-436; `reconstructors/base.py` 176-224 |
| `BatchOthers` | `models/multislice_ptycho.py` 432-542, `models/bragg_2d_ptycho.py` 485-560, `models/simple_ptycho.py` 88-108, `tools/interactions/interactions.py` 255-292 on batches |
| `FancyPtycho`, `FancyResults` | `models/fancy_ptycho.py` |
| `FinitePixels` | `tools/measurements/measurements.py` 43-61, 110-148 with `simulate_finite_pixels=True` |
| `CenterProbes` | `models/fancy_ptycho.py` 753-786, 921-934; `models/multislice_ptycho.py` 623-643 |
| `Multislice2D` | `models/multislice_2d_ptycho.py` 150-178, 178-205 (up to the call that raises), 327-436, 501-596 |
| `ObjModes` | object modes in `models/fancy_ptycho.py` 434-435, 544-642; `tools/interactions/interactions.py` 462-503 (broadcasting of modes), 505-597 (shapes only) |
| `ModelLoss` | `reconstructors/base.py` 161-231 together with the loss and normalizer of `models/fancy_ptycho.py` 222-236 |
| `Plotting` | `tools/plotting/plotting.py`: `colorize`, `get_units_factor`, the geometry and the per-figure state of `plot_image`, `plot_phase`, `plot_translations`, `plot_nanomap`; `models/fancy_ptycho.py` 970-994 |
| `Colormap` | `tools/plotting/plotting.py` 58-75, 1318-1575: the default color table and its interpolation (`np.interp` by contract) |
| `StemProbe` | `tools/initializers/initializers.py` `SHARP_style_near_field_probe`, `STEM_style_probe` (365-527), near-field geometry in `models/fancy_ptycho.py` 307-366 |
| `Devices` | `datasets/base.py` 73-153, `datasets/ptycho_2d_dataset.py` 87-126 (`to`, `get_as`, item access), `models/multislice_2d_ptycho.py` `to` (438-461) |
| `Optimizers` | `reconstructors/adam.py` 107-250 and `reconstructors/lbfgs.py` 51-136: hyperparameters across calls; the state of `torch.optim.Adam` (key `max_exp_avg_sq`) and `torch.optim.LBFGS` (`old_dirs`, `al`) is a stated contract |
| `ModelBase` | `models/base.py` 118-167 (detector geometry), 1021-1051 (`save_figures`); surface normals in `models/fancy_ptycho.py` 368-383 and `models/multislice_ptycho.py` 246-261; `datasets/ptycho_2d_dataset.py` 218-274 (`inspect`; infinities and NaN of the data are not modelled) |
| `SpectralGuess` | `tools/initializers/initializers.py` 530-594 for a probe of one mode; the eigensolver is a contract, NaN from zeros of `vec` are not modelled |
| `FancyTraining` | the parameters of `FancyPtycho` (`models/fancy_ptycho.py` 120-215, 222-236) as one vector and its closure in `reconstructors/base.py` 176-224; all parameters trainable |
| `Autograd` | `sim_to_dataset` of the four ptychography models and `loss.backward()` (`reconstructors/base.py` 193-214) as far as the history of tensors is concerned; torch frees a graph when it is walked |
| `Training` | the parameters of `SimplePtycho`, `RPI`, `MultislicePtycho`, `Bragg2DPtycho` as points of real vector spaces, and the closure of `run_epoch` with their forward models; parameters with `requires_grad=False` simply keep their values |
| `Browse` | `tools/plotting/plotting.py` `plot_image` (116-485: index, keys, sliders; no drawing), `plot_nanomap_with_images` (993-1285), `models/base.py` `compare` (1054-1161) |
| `Multislice`, `Bragg`, `Simple`, `RpiModel`, `ResultsIO` | the other models, and their results dictionaries |

Not modelled: drawing itself (matplotlib), devices and dtypes, random number generators (arbitrary values instead), the
numerical methods named above (contracts instead) and polarized probes.

## Layout

* `Verif/Model/*.lean`  – the model, function by function, with citations.
* `Verif/Spec/*.lean`   – small independent specifications used by statements (when a statement cannot be said directly
  with Mathlib vocabulary).
* `Verif/Lemmas/*.lean` – helper lemmas.
* `Verif/Props/*.lean`  – the property theorems, each with a non-vacuity `example` beside it.

Where the code does something that the English property excludes, the negation is proved, for all inputs of the failing
kind or on a concrete witness (names ending in `_violated`), and the provable part carries the suffix `_partial` if it
is less than the property.

## Per property: what is modelled, how it is proved

| id | model | proof |
|----|-------|-------|
| C01 | closure of `run_epoch` as a loop over `range(0, n, cw)` slices; gradients in any commutative monoid | chunks flatten to the list (strong induction); sums over a flatten |
| C02 | same closure with optional regularizer gradient | algebra on C01 |
| C03, C04, C64 | epoch state machine, the generator as a fold with a consumer that stops anywhere, schedulers | invariants by induction over histories |
| C05, C06 | two-thread transition system (worker, polling main, queue, stop flag) | every schedule agrees with the sequential run; a schedule that never ends for `SystemExit` |
| C07 | sampler permutation and consecutive batching over subset indices | `List.Perm` of flattened batches |
| C08 | argument plumbing of the loaders as `Except`-valued functions | case analysis; negations |
| C09 | parameter groups and `lr_factors` as an operation sequence | refinement to "last supplied dictionary" |
| C10–C12 | script = list of epochs and checkpoints; job runner with skip logic and files; context managers as functions of body outcome and disk | simulation by induction over scripts and job chains; case analysis |
| C13 | results dictionary, `load_state_dict(strict=False)` | map lemmas |
| C14, C15 | nested dictionary as an inductive tree, HDF5 groups as finite maps | structural induction |
| C16–C20 | HDF5 tree as a finite map from paths, readers and writers in `Except`; dataset record | round-trip lemmas on map updates |
| C21–C26 | dataset record with a list of exposures and shape-carrying images | list and Finset-sum lemmas; induction over filter sequences |
| C27–C29 | losses and normalizers over ℝ | inequalities (`Real.add_one_le_exp`, log bounds), sums over batches |
| C30–C32 | measurement functions over ℝ/ℂ | order lemmas, unitary invariance, block sums |
| C33–C35, C56 | DFT as an explicit sum; angular spectrum and generalized propagators | orthogonality of characters; plane waves as eigenfunctions |
| C36–C40, C57 | image processing on `ZMod n × ZMod m` | DFT algebra; argmax lemmas; weighted means |
| C41–C44, C58 | windows, floor/round arithmetic, bilinear weights, pseudo-inverse | floor lemmas, matrix algebra |
| C45, C46, C59–C61 | initializers | induction, matrix algebra, Gaussian integrals by completing the square |
| C47 | `standardize` on stacks of modes | norm algebra, uniqueness of normal forms |
| C48, C49, C51 | stacks of modes as matrices, SVD/QR/eigh by contract | trace inequalities (Cauchy–Schwarz), uniqueness of spectra |
| C50, C69–C71 | rings as histogram bins of radii | Cauchy–Schwarz per ring |
| C52 | figure table and callback registry as a state machine | invariants over event histories |
| C53–C55, C62, C63, C65 | `FancyPtycho` | linearity of the map from modes to detector waves, C31, C48 |
| C66–C68 | reconstruction sets | phase ramps as Fourier shifts; induction over lists |
| C72–C74 | RPI | C31, C44; shapes with broadcasting |
| C75, C76 | multislice | induction over slices; unitarity |
| C77 | high-NA propagation | vector geometry, bilinear interpolation |
| C78, C79 | Bragg geometry | C56, C58, C77; projector algebra |
| C80 | SimplePtycho | C42, C60 |
| C81 | index state machines under all event lists; row-major rank | induction over axes and over events |
| C82 | finite pixels | band-limited field as a Fourier sum, interval integrals, characters of ZMod 2n |
| C83 | center_probes | `center` (C39) on the stack, shift theorem, sinc shifts unitary |
| C84 | per-exposure views | matrix algebra, orthogonalization (C46) keeps the coherence |
| C85 | the slice loop as a list recursion | linearity of every step, unitarity, the interactions of C43, orthogonalization (C46); aliasing prevention against the amplitudes of continuous band-limited waves (linear instead of cyclic convolution) |
| C86 | the pairing of probe and object modes as a list operation with the broadcasting rules | list induction, reduction to the single-object model; concrete one-pixel models for the violations |
| C87 | shapes of the S-matrix code | computation of the shapes for all sizes |
| C88 | epochs as lists of (simulation of the model at that minibatch, minibatch) | losses as distances (C27-C29), additivity over chunks, derivatives of the sums |
| C89 | the transform of `plot_image` as matrices over the reals, points of an axes as list | orthonormal frame of the view, projection identity; induction over plots |
| C90 | `hsv_to_rgb` on reals, phase in degrees modulo 360 | injectivity of hue (six sectors), of the phase and of polar coordinates ; the default table, in the plane around an axis, is a closed polygon that always turns one way and meets each ray once (256 integer rows checked by the kernel) |
| C91 | a figure with attributes `_current_im` etc. and its displayed image | invariants over the sequence of calls |
| C92 | rays to the pixels, arccos of the direction, aperture as indicator | `far_field` inverts its inverse; Euclidean angle as specification; reflection of the array for the centroid |
| C93 | bases and propagators as in C56, data as C45 | quadratic identity (Fresnel scaling); `near_field` inverts its conjugate; explicit phases for the counterexample |
| C94 | tensors with device, dtype and entries; dataset operations as a fold over a history | induction over the history |
| C95 | calls as lists of steps over the optimizer state | induction over steps and calls, invariant `pairs ≤ history` |
| C96 | dictionaries with missing/None/value entries, buffers as options; vectors of `Model/Fourier` | induction over the sequence; vector algebra |
| C97 | directory as a map from names | `find?` of the last figure with the name |
| C98 | the chunk loop over list slices | loop invariant on the written prefix |
| C99 | operators of C61, eigenpairs as hypothesis | self-adjointness from C61 |
| C100 | closure of C01 with the forward model of C53 ff. and the losses of C27-C29 | chain rule through linear maps, exponentials, squares; integer parts locally constant |
| C101 | as C100 | equality of simulations, derivative along constant lines |
| C102 | `sincExit`, `farField` | one-sided limits from the roll theorem of C37; counterexample |
| C103 | `simChunked`, `simWhole`, `Autograd.train` | induction over the chunks; invariant: passes not yet run are not freed |
| C104 | `shotPhysics`, `simplePhysics`, `rpiPhysics`, `multislicePhysics`, `braggPhysics` | every simulation is smooth around a regular point (`SmoothAt`), then the closure of C01; invariance along lines for the support |
| C105 | `PtychoData.toCxi`, `CData.toCxi`, `PtychoData.fromCxi` | every writer step preserves the file order `OnlyAdds`; a second `data` dataset is refused |
| C106 | `Physics.closure` | without regularization the closure reports one differentiable function, and small steps along descent directions decrease it sufficiently; with a factor it reports the value of one function and the gradient of another (negation proved) |
| C107 | `Model/StdSets.lean`: both functions whole | covariance of the gauge chain under phases, zero shift of copies, invariance of fidelity and FRC; reachable witnesses with one bright pixel for the violated parts |
| C108 | `Model/PlotLists.lean`: titles, places, conditions and images of the plot lists of all models | enumeration of the finite lists for every state, Fourier inversion and reflection, exponentials, linearity for the dark signal; negations for the violated parts |
| C109 | `Model/FancyFromDataset.lean`: `FancyPtycho.from_dataset` as a whole, on the pieces of C41, C46, C53, C54, C60, C93, C96 | fields of the new model by unfolding; sub-pixel shifts change only phases of the far field; unitarity for the totals; negations for the violated parts |
| C110 | `Model/MultisliceFromDataset.lean`: `MultislicePtycho.from_dataset` as a whole, sharing the pieces of C109 | the new model is the new `FancyPtycho` model with slices, propagator and weights (C109 applies to its probe); induction over the slices for the passage of the wave; unitarity for the totals; negations for the violated parts |
| C111 | `Model/BraggFromDataset.lean`: `Bragg2DPtycho.from_dataset` as a whole, sharing the pieces of C79 and C109 | windows by C79; propagators of modulus one leave the far field of the probe unchanged in modulus; unitarity for total counts | first patterns with tilt correction not covered |
| C112 | `Model/DatasetBridge.lean` joins the dataset of C21–C26 to `from_dataset` of C109: models made before and after `pad` / `downsample` | the scaled detector basis through the pseudo-inverse; block sums of mean counts; unitarity of the far field | the corner of the detector after padding is wrong |
| C113 | the forward models of C46/C109, C72, C75, C78 and C80 with two probes, objects or backgrounds; the minibatch loss of C88 | linearity of the wave from probe and from window to detector, Parseval for every step, the triangle inequality for roots of sums of squares and its stability under affine maps, saturation and averaging | nothing |
| C114 | the forward models of C75, C78 and C80 with two sets of parameters that agree where the exposure can see | the window reads only its own pixels; a loss that does not change along a direction has no derivative along it | positions with a negative corner (Python slices wrap there) |
| C115 | `Model/Batch.lean`: arrays with torch's broadcasting, `FancyPtycho.interaction`, `ptycho_2D_sinc` and `quadratic_background` operation by operation on a batch | every intermediate array is shown to represent the list of the per-exposure values (`Rep4`, `RepI`), which C41-C55 are about | finite pixels, object modes; devices and dtypes |
| C116 | `Model/BatchOthers.lean`: the three other forward models operation by operation on batches of exposures, with the in-place propagation of row after row of Bragg2DPtycho | as C115, with arrays that represent families of waves for any leading shape (`RepW`) and an invariant of the loop over the rows |
| C117 | `Model/Training2D.lean`: the parameters of Multislice2DPtycho as a point of a real vector space, the closure with its forward model | the loop over the slices keeps differentiability (`runPasses_smooth`), windows are locally constant off the steps, then the closure of C01; for the finding, invariance of the loss along the offsets |
| C118 | `Model/LossArrays.lean`: the losses with `masked_select` and broadcasting on arrays of any shape, the normalizers, the chunks of a minibatch as slices of arrays | sums over row-major indices (`sum_shapeIndices3`), selection by a broadcast mask (`select_stack`), additivity over the chunks, C115 and C116 for the simulations |
| C119 | `Model/Descent.lean`: one step of Adam (bias corrections, AMSGrad) and SGD (momentum, dampening, Nesterov, weight decay) with per-parameter learning rates, runs as folds over the minibatch losses | invariants by induction over the steps (zero averages of unseen coordinates; Cauchy–Schwarz between the two averages for the bound), Armijo lemma of C106 for the descent |
| C120 | `Model/FancySteps.lean`: the parameters of FancyPtycho as named real coordinates, runs of minibatches with the steps of C119 | locality of the loss along a coordinate (`fancy_loss_local`, C101), zero partial derivatives, invariants of the optimizer memory by induction over the run; C100 for the gradient of the closure |
| C121 | the runs of C120 on data that the model simulates | the total loss is non-negative and 0 there, so every partial derivative vanishes (Fermat); the memories of the optimizers stay zero, by induction over the run |
| C122 | `fancyFromDataset`, `Fancy.forward`, `fancyRun` on a dataset with all lengths multiplied by a positive factor | homogeneity of the pseudo-inverse, of the dual basis and of the propagator phase (degree 0 in lengths), then the two models agree field by field; runs by induction |
| C123 | `fancyFromDataset`, `Fancy.forward`, `fancyRun` on a dataset turned about the beam | rotations preserve dot and cross products and commute with the projection along the beam; pseudo-inverse, dual basis and plane normal turn with the bases; then field by field as C122 |
| C124 | `multisliceFromDataset`, `Multislice.forward`, `braggFromDataset`, `Bragg.forward`, `highNAMap`, `highNAIntensity`, `generalizedPropagator` in other units and turned frames | homogeneity and equivariance of every geometric function (projector along the normal, median positions, rays to the pixels, tilt maps), then field by field; the counterexample for the interslice propagator compares a propagating with an evanescent wave |
| C125 | `fancyFromDataset`, `Fancy.forward`, `fancyRun`, `fancyAdam`, `fancySgd` on permuted exposures | minima, maxima, sums and means of permuted lists; then the two models agree field by field; for runs the gradient in permuted coordinates is the permuted gradient and the optimizer steps commute with it, by induction |
| C126 | `braggFromDataset`, `multisliceFromDataset` and their simulations on permuted exposures | as C125, and the median does not depend on the order; the counterexample computes the weights of two exposures with two modes |
| C127 | `fancyFromDataset`, `multisliceFromDataset`, `braggFromDataset`, their simulations and `fancyRun` with a vector added to all translations | both projections are linear; minima, maxima and the median move with the vector; then field by field; runs by induction |
| C128 | `fancyFromDataset`, `multisliceFromDataset`, `braggFromDataset` and their simulations on padded images | windows at non-negative starts move with the padding (linear arithmetic on slice bounds); the fractional part of the position does not change; then field by field |
| C129 | `shotRun`, `shotAdam`, `shotSgd`: the minibatch loop for any model with real coordinates, and the coordinates of four models | induction on the steps with the invariant that the memory of the optimizer is zero; partial derivatives vanish by C114 or at a minimum of the loss |
| C130 | `shotRun` as in C129 for two models related by a translation of parameters and inputs (`SamePhysics`) | induction on the steps: the gradients are related by the renumbering of the coordinates (`shot_adam_same`), instances from C124, C126, C127 |
| C131 | `simpleFromDataset`, `Simple.forward`, `shotRun` | the translations in pixels are the same up to a constant (`simple_from_dataset_change`); reconstructions by C130 (`simple_same`) |
| C132 | `Fancy.forward`, `Multislice.forward`, `Bragg.forward`, `shotRun` | the sum over the modes is reindexed by the permutation (`shotProbes_order`); reconstructions by C130, for FancyPtycho through `fancyRun_eq` |
| C133 | `Fancy.forward`, `Fancy.correctedTranslation`, `fancyAdam`, `fancySgd`, `Multislice.forward`, `Simple.forward` | `Fancy.swapAxes` commutes with each step: the pseudo-inverse of the basis (`pinvTall_swap`), both Fourier transforms (double sums exchanged), padding, phase ramps, windows and binning; reconstructions by a simulation between two lists of coordinates (`SwappedPhysics.run`) |
| C134 | `exitWaveGeometry`, `sharpProbe`, `simpleFromDataset`, `fancyFromDataset`, `datasetNormal` | `swapAxes` commutes with each step of the construction; the normal in reflection is computed |
### Axioms per theorem

`#print axioms` on the 861 theorems of the manifest:

* no axioms: `custom_loader_used`, `to_numpy_requires_grad_violated`, `multi2D_from_dataset_violated`, `Dev.dataset_mask_violated`, `Dev.multi2D_to_violated`.
* `propext`: `save_on_exit_never_silent`, `load_state_dict_partial_update`, `load_state_dict_shape_mismatch`, `to_numpy_preserves_structure_partial`, `to_torch_preserves_structure`, `torch_then_numpy_partial`, `FancyIO.init_derived_shapes`, `RpiIO.rpi_object_mode_axis`, `Browse.nanomap_scroll_violated`, `Browse.compare_rpi_violated`, `Dev.dataset_item_device`, `Dev.dataset_mask_bool`, `Dev.dataset_to_violated`, `Dev.dataset_index_violated`, `Dev.dataset_moves_all`, `model_geometry_roundtrip`, `geometry_history`, `geometry_stale_violated`, `save_figures_none`.
* `Quot.sound`, `propext`: `chunks_partition_minibatch`, `epoch_uses_each_exposure_once`, `epoch_uses_whole_dataset`, `unshuffled_epoch_in_order`, `epoch_batch_sizes`, `adam_honours_loader_args_partial`, `lbfgs_single_batch`, `sgd_honours_batch_partial`, `save_on_exit_always_saves`, `save_on_exception_saves_iff_raised`, `h5_roundtrip_partial`, `h5_write_into_group_partial`, `calibration_background_violated`, `calibration_mask_violated`, `multislice_view`, `ResultsIO.multislice_background_violated`, `ResultsIO.simple_reachable_reprobe`, `Browse.nanomap_right_visits`, `s_matrix_violated`, `Dev.dataset_item_values`, `adam_calls_succeed`, `adam_amsgrad_violated`, `lbfgs_calls_succeed`, `geometry_copy`, `fancy_outcomes`.
* `Classical.choice`, `Quot.sound`, `propext`: all the others (812).

## Disagreements between the code and its documented or reasonable behaviour (proved as negations)

1. C05: `SystemExit` in a worker thread leaves the result queue empty; `get()` blocks for ever.
2. C08: `batch_size=None` uses `td.Dataloader` (AttributeError), the default of `SGD_optimize`; SGD does not forward `shuffle`.
3. C10, C11: checkpoints never hold the optimizer state, so that momentum is lost on resuming; without `thread=True` a
   resumed job differs; the skip branch increments an attribute that does not exist.
4. C14: a key with a slash is not recovered from HDF5. C15: `nested_dict_to_numpy` fails on tensors that require grad.
5. C19: unknown metadata keys are dropped, date-like titles become dates, non-ASCII strings are refused. C20: `to_cxi` by
   file name lacks `entry_1`; a dataset without a wavelength can be written but not read.
6. C21: `from_cxi` does not mask NaNs; `+inf` and `-inf` in different exposures are masked.
7. C23: `pad` does not pad `qe_mask`. C24: background counts of masked pixels enter downsampled backgrounds.
8. C27: an aborted first epoch corrupts the divisor of the normalizers. C29: the Poisson offset includes `eps`, so that the
   normalized loss can be negative.
9. C38: `find_pixel_shift` is NaN (result 0) when a Fourier coefficient vanishes, and its docstring has the opposite sign.
   C57: `find_shift` raises below 30 pixels.
10. C39: `center` targets `n/2`, for odd sizes not the central pixel. C40: `hann_window` swaps the dimensions;
    `fourier_upsample` misplaces the zero frequency for odd sizes and even factors.
11. C41: `ptycho_2D_linear(shift_probe=False)` reads past the object at padding 0.
12. C45: subdominant modes are normalized by the sum of moduli. C46: `exit_wave_geometry` ignores `oversampling`. C59:
    `gaussian_probe` propagates by −z. C61: `RPI_spectral_init` misplaces frequencies for even probes and odd objects.
13. C47: the ramp correction does not in general centre the spectrum; the default slice is empty below 8 pixels. C51:
    `calc_vn_entropy` of a single matrix is not normalized.
14. C52: panel conditions are ignored outside panel mode; plots that become eligible late are never drawn; an exception in
    a panel leaks callbacks; a redraw without sliders keeps stale callbacks.
15. C53: `dm_rank < -1` is a RuntimeError; the default object view is empty for one-dimensional scans; the view crops the
    mode axis of several object modes. C54: `probe_fourier_shifts` is initialized from the translation offsets; near-field
    `backward_propagator` always raises; models without weights or translations cannot be saved; a broadcast support
    cannot be reloaded; `simulate_probe_translation` without Fourier shifts always raises. C55: the stored orientation is
    NaN for a normal along y. C62: `tidy_probes` divides by zero for rank-deficient light, e.g. fresh models with
    `0 < dm_rank < n_modes`. C63: corrected translations do not reproduce the patterns with `simulate_probe_translation`.
16. C56: the generalized propagator amplifies evanescent waves for some propagation vectors.
17. C66: removing a phase ramp is not exact at fractional positions; the amplitude correction without weights changes
    relative intensities, broadcasts weight matrices along the wrong axis, and raises KeyError on the output of
    `save_results`. C67: so does `make_illumination_map`.
18. C69: the PRTF exceeds 1. C70: the generalized FRC drops the outermost frequency, uses another threshold and raises for
    `nbins=None`. C71: the third result of `calc_spectral_info` is not the SSNR.
19. C73, C74: RPI: `phase_only` without `exponentiate_obj`, object basis at unequal magnifications, full-size objects,
    calibration geometry, default backgrounds and masks, weight refinement not restored.
20. C75, C76: multislice: one propagation too many, a fractional translation at every slice, exchanged pixel sizes,
    intensities instead of amplitudes in the weights, empty default view.
21. C77: the high-NA maps are centred at (N−1)/2; the solid-angle factor multiplies amplitudes. C78: evanescent waves
    undamped, no simulation without weights; C79: unknown scattering mode is an AttributeError.
22. C80: a dark dataset gives a probe of NaNs; the loss is always amplitude MSE after reloading.
23. C81: redrawing a figure with a smaller stack raises IndexError and keeps the old image; the scroll wheel is ignored; `compare` fails on RPI models.
24. C82: with finite pixels the padding amounts of the two axes are exchanged (wrong output shape unless square), the blurring mask is off centre by half a frequency step (total too small by sinc²(1/(2n−1))) and `intensity` returns complex numbers.
25. C83: `center_probes` moves the probe but not its support, so light can leave the support and is lost; the multislice version centers Fourier-space probes as if they were in real space, which does not move them.
26. C84: `get_rhos` ignores weights that are numbers; the panel "square root of summed intensity" shows the intensity.
27. C85: `Multislice2DPtycho.from_dataset` always raises TypeError; with the default settings the first slice has half the scale; the band limit is ignored; floor versus round between slices; `tidy_probes` writes its new probes to a temporary; with `prevent_aliasing` the doubled grid is enough for two slices, and with three or more high frequencies wrap around into the detector.
28. C86: probe mode i only meets object mode i; other mode numbers raise RuntimeError; swapping probe modes changes the prediction.
29. C87: `ptycho_2D_sinc_s_matrix` leaves a trailing axis of 2 in its result and raises for realistic probes.
30. C89: `get_units_factor` raises UnboundLocalError for an unknown unit.
31. C90: `colorize` divides by the largest amplitude, NaN for a zero image.
32. C91: `plot_image` ignores limits and basis from the second call on; after `fig.clear()` the old image object is updated but no longer displayed.
33. C92: `STEM_style_probe` uses detector pixels for the centre on the oversampled grid, the unscaled basis for the propagation, and gives NaN for an empty aperture.
34. C93: with oversampling the near-field probe guess is propagated back with the pixel size of the fine grid on the coarse grid.
35. C94: `dataset.to(device)` does not change what items are delivered as (the constructor's `get_as('cpu')` stays), a positional dtype converts the boolean mask, `Multislice2DPtycho.to` returns None.
36. C95: Adam with `amsgrad` switched on after the first call raises KeyError; LBFGS with a changed `history_size` raises IndexError once the memory is full.
37. C96: a geometry without distance leaves the old distance in the model; unknown scattering modes are ignored by FancyPtycho and MultislicePtycho.
38. C97: `save_figures` names files by the first axes: the three per-exposure figures of FancyPtycho end in one file.
39. C98: `Ptycho2DDataset.inspect` raises TypeError for datasets without mask.
40. C99: `RPI_spectral_init` divides by the sum of squared eigenvalues instead of its root: brighter data give a weaker guess.
41. C102: the simulated intensity jumps when a scan position crosses an integer pixel, unless the probe vanishes on its last row (column): the circular sub-pixel shift wraps that row to the other side of the window.
42. C103: `Bragg2DPtycho.sim_to_dataset` and `Multislice2DPtycho.sim_to_dataset` do not detach the simulated patterns: training on such a dataset adds gradients to the simulating model and raises RuntimeError at the second chunk.
43. C106: with a regularization factor the closure returns the data loss but leaves the gradient of data loss plus regularizer; a strong-Wolfe line search can then reject every step along a direction of descent.
44. C107: `standardize_reconstruction_set` moves the objects of the halves but returns the old translations, so what is returned predicts other patterns; `standardize_reconstruction_pair(correct_phase_ramp=False)` overwrites `half_2['probe']` of the caller; windows (and, for pairs, probes) smaller than 30 pixels always raise.
45. C57: `find_shift` returns (0, 0) for every pair of images one of which has a vanishing Fourier coefficient.
46. C108: `MultislicePtycho`, `Multislice2DPtycho` and `Bragg2DPtycho` plot the inverse far field as the Fourier space probe: the picture is turned by 180°; the three per-exposure plots of `MultislicePtycho` share one (empty) title and figure; a `MultislicePtycho` without weights cannot be inspected; with `phase_only` the plot of the imaginary part of T shows numbers without effect.
47. C81: after a redraw that needs more sliders than before (it raises IndexError), the sliders of the figure are dead.
48. C109: with oversampling the first simulated patterns are too dark by the square of the factor (mean instead of sum over a pixel's block while the
    probe guess keeps its total); `probe_support_radius` is measured from `(n-1)/2`, not from the focus `n//2`, and can leave nothing; with a
    quantum efficiency mask the first patterns carry the efficiency twice.
49. C110: with oversampling a multislice model made by from_dataset can simulate no exposure (the probe guess is built on the detector grid, the grids do not match); `probe_shape` always raises TypeError (gaussian_probe is called without sigma).
50. C111: a Bragg model ignores the recorded intensities; a Fourier crop along one axis only (`probe[0:-0]`) raises; with oversampling the first patterns are too dark by its square.
51. C112: `pad` leaves `detector_geometry['corner']` as it is, so the recorded pixels are reported at the location of the new ones.
52. C115: `FancyPtycho.forward` of a single exposure raises TypeError without weights and IndexError with Fourier shifts; an exposure at the edge of the object where one row (or column) is left is silently simulated with this row repeated under the whole probe, while any other number of rows is an error.
53. C116: `Bragg2DPtycho.forward` of a single exposure with `propagate_probe` and two or more modes raises IndexError, because the loop over `prs.shape[0]` then runs over the modes and there is only one distance; without weights it raises TypeError for batches too. `MultislicePtycho.forward` of a single exposure raises TypeError without weights and IndexError with `simulate_probe_translation`.
54. C117: with `subpixel=False`, Multislice2DPtycho has translation offsets as parameters, but only rounded positions enter the simulation, so their gradient is zero and they are never refined (`multi2D_offsets_untrained`); no warning is given.
55. C118: simulated patterns of a single row (or column) are broadcast against the data without an error, so a model for a one-row detector trains on data of any height (`loss_one_row_violated`).
56. C119 (exception named in the statement): with weight decay SGD shrinks object pixels that no exposure illuminates by a factor `1 - lr·weight_decay` in every minibatch (`sgd_weight_decay_violated`); the background of the object is then not what the initial guess says.
57. C124: the propagator between the slices of `MultislicePtycho` takes the pixel sizes from `obj_basis[0,1]` and `obj_basis[1,0]` alone, so the same experiment written in a frame turned about the beam is another model: for a detector turned by 45° a wave that propagates without loss is damped (`multislice_azimuth_violated`).
58. C126: with weight matrices, recorded intensities and as many modes as exposures, `MultislicePtycho.from_dataset` multiplies the modes (not the exposures) by the intensities, so the order of the exposures changes the model (`multislice_order_violated`).
59. C134: with `scattering_mode="reflection"` the surface normal is taken from the cross product of the two basis vectors of the detector, so it depends on the order of the axes: for the two orders the normals are perpendicular to each other (`reflection_normal_axes`), and a detector whose cross product points to the sample gets the wrong one.
