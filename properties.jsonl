{"id": "C01", "title": "calculation_width never changes a minibatch step", "statement": "For every minibatch and every positive calculation_width, the loss that one optimization step reports and the gradient it leaves on every model parameter are exactly those obtained by processing the minibatch in one pass; the chunks cover the minibatch once, in order, and none is larger than calculation_width.", "quantifier": "all minibatch sizes, all calculation widths >= 1 (including widths that do not divide or exceed the minibatch), all data-additive losses", "why_tests_cant": "the pair (minibatch size, width) is unbounded and off-by-one errors only show on particular remainders", "anchors": ["src/cdtools/reconstructors/base.py:Reconstructor.run_epoch", "src/cdtools/reconstructors/base.py:Reconstructor.optimize"]}
{"id": "C02", "title": "regularization acts on the gradient once per step and never on the reported loss", "statement": "When a regularization_factor is set, each optimization step adds the regularizer's gradient exactly once, however many chunks the minibatch is cut into, and the losses appended to loss_history contain the data term only.", "quantifier": "all minibatches, widths, regularizers and models", "why_tests_cant": "interaction of two unbounded parameters (chunk count and regularizer)", "anchors": ["src/cdtools/reconstructors/base.py:Reconstructor.run_epoch"]}
{"id": "C03", "title": "loss_history, epoch and training_history stay in step", "statement": "After any sequence of completed, failed and interrupted epochs run by any mixture of optimizers on one model, model.epoch equals len(model.loss_history), loss_history is only ever appended to (exactly one entry per completed epoch, none for a failed one) and training_history only grows.", "quantifier": "all finite histories of epochs with any outcome, from any optimizer, including reuse of a model across reconstructors", "why_tests_cant": "histories are unbounded; tests check one short run", "anchors": ["src/cdtools/reconstructors/base.py:Reconstructor.run_epoch", "src/cdtools/models/base.py:CDIModel.Adam_optimize", "src/cdtools/models/base.py:CDIModel.report"]}
{"id": "C04", "title": "optimize yields exactly the losses it records", "statement": "Exhausting an optimize generator of n iterations on a live (not checkpoint-skipped) model yields n values, equal in order to the n entries it appended to loss_history; stopping early after k yields has appended exactly k entries.", "quantifier": "all iteration counts, all stopping points, all sequences of epoch outcomes", "why_tests_cant": "all prefixes of an unbounded generator", "anchors": ["src/cdtools/reconstructors/base.py:Reconstructor.optimize"]}
{"id": "C05", "title": "thread=True is observably the same as thread=False", "statement": "Running the optimization in a worker thread yields the same losses, leaves the same model state and raises the same exception as running it in the calling thread, for every schedule of the polling loop; no schedule blocks forever.", "quantifier": "all schedules of main/worker, all worker outcomes (value, Exception, SystemExit), all times of a KeyboardInterrupt", "why_tests_cant": "thread schedules are not enumerable by tests", "anchors": ["src/cdtools/reconstructors/base.py:Reconstructor.optimize"]}
{"id": "C06", "title": "a KeyboardInterrupt stops the worker at a chunk boundary", "statement": "After a KeyboardInterrupt in the main thread during a threaded epoch, the worker performs no further chunk computation beyond the one in progress, the KeyboardInterrupt is re-raised to the caller, and the epoch is either not recorded in loss_history or was already computed to its end when the interrupt came.", "quantifier": "all interrupt times relative to the chunks of an epoch, all chunk counts", "why_tests_cant": "the interrupt time is a schedule variable", "anchors": ["src/cdtools/reconstructors/base.py:Reconstructor.run_epoch", "src/cdtools/reconstructors/base.py:Reconstructor.optimize"]}
{"id": "C07", "title": "each epoch uses every selected exposure exactly once", "statement": "Within one epoch, the minibatches handed to the model together contain every index of the dataset (or of the chosen subset, where an int subset means the one-element list) exactly once, each minibatch except possibly the last having batch_size exposures, with or without shuffling.", "quantifier": "all dataset sizes, batch sizes >= 1, subsets and shuffle permutations", "why_tests_cant": "all permutations and sizes", "anchors": ["src/cdtools/reconstructors/base.py:Reconstructor.__init__", "src/cdtools/reconstructors/base.py:Reconstructor.setup_dataloader"]}
{"id": "C08", "title": "every documented batch_size and shuffle setting is honoured", "statement": "setup_dataloader accepts batch_size=None (single full batch), SGD's default batch size works and SGD's shuffle argument is forwarded.", "quantifier": "all argument combinations of Adam/SGD/LBFGS optimize and the model-level *_optimize wrappers", "why_tests_cant": "argument plumbing over every combination; the failing combination is a default", "anchors": ["src/cdtools/reconstructors/base.py:Reconstructor.setup_dataloader", "src/cdtools/reconstructors/sgd.py:SGDReconstructor.optimize", "src/cdtools/models/base.py:CDIModel.SGD_optimize"]}
{"id": "C09", "title": "learning rate factors apply per named parameter and persist", "statement": "After any sequence of adjust_optimizer/optimize calls, each parameter's learning rate is lr times the factor most recently supplied for it (1 if the most recently supplied dictionary does not name it); lr_factors=None keeps the previous dictionary; unknown names raise a warning naming exactly the unknown keys and change nothing.", "quantifier": "all sequences of calls, all dictionaries, all parameter name sets", "why_tests_cant": "unbounded call histories", "anchors": ["src/cdtools/reconstructors/adam.py:AdamReconstructor.adjust_optimizer", "src/cdtools/reconstructors/adam.py:AdamReconstructor._set_lr_factors", "src/cdtools/reconstructors/sgd.py:SGDReconstructor.adjust_optimizer"]}
{"id": "C10", "title": "resuming from checkpoints replays the uninterrupted run", "statement": "Running a script with k checkpoint() calls as successive jobs 0,1,...,k, each started from the files the previous ones left, ends in the same model state (parameters, loss history, epoch, training history) as running the script without checkpoints, and no epoch's computation is performed twice.", "quantifier": "all scripts, all numbers and positions of checkpoints, all crash-and-restart histories in job order", "why_tests_cant": "all scripts and histories", "anchors": ["src/cdtools/models/base.py:CDIModel.checkpoint", "src/cdtools/models/base.py:CDIModel.save_checkpoint", "src/cdtools/models/base.py:CDIModel.load_checkpoint", "src/cdtools/models/base.py:CDIModel.skip_computation", "src/cdtools/reconstructors/base.py:Reconstructor.optimize"]}
{"id": "C11", "title": "checkpoints carry the optimizer state", "statement": "When a checkpoint is taken between optimization calls, the saved file contains the optimizer's state so the resumed job continues with it.", "quantifier": "all scripts with an optimizer before a checkpoint", "why_tests_cant": "needs the whole save/resume history", "anchors": ["src/cdtools/models/base.py:CDIModel.save_checkpoint", "src/cdtools/reconstructors/base.py:Reconstructor.optimize"]}
{"id": "C12", "title": "save_on_exit and save_on_exception always leave the results on disk", "statement": "Whatever happens in the with-block (normal end, any exception at any point, including KeyboardInterrupt and SystemExit), save_on_exit leaves a results file holding the model state at the moment of exit and re-raises the exception; save_on_exception writes only when an exception occurred.", "quantifier": "all bodies, all exception points", "why_tests_cant": "exit points are unbounded", "anchors": ["src/cdtools/models/base.py:CDIModel.save_on_exit", "src/cdtools/models/base.py:CDIModel.save_on_exception"]}
{"id": "C13", "title": "results files round-trip", "statement": "Loading a results dictionary written by save_results into a freshly constructed model of the same shape restores every parameter and buffer, loss_history, epoch and training_history; keys absent from the model are ignored and parameters absent from the file keep their values.", "quantifier": "all state dictionaries, loss histories, epochs and training histories", "why_tests_cant": "all states", "anchors": ["src/cdtools/models/base.py:CDIModel.save_results", "src/cdtools/models/base.py:CDIModel._load_results_dict"]}
{"id": "C14", "title": "nested_dict_to_h5 / h5_to_nested_dict round-trip", "statement": "Every nested dictionary of numbers, booleans, arrays, tensors, strings and mappings with string keys is recovered from the h5 file with equal contents (tensors come back as arrays, leaves of any other type are refused with ValueError and never silently dropped).", "quantifier": "all finite nested dictionaries of any depth", "why_tests_cant": "unbounded nesting depth and key sets", "anchors": ["src/cdtools/tools/data/data.py:nested_dict_to_h5", "src/cdtools/tools/data/data.py:h5_to_nested_dict"]}
{"id": "C15", "title": "nested_dict_to_numpy / nested_dict_to_torch preserve structure", "statement": "Both conversions keep exactly the same keys at every level, never touch strings, are idempotent, and converting to torch then to numpy equals converting directly to numpy; unsupported leaves raise ValueError.", "quantifier": "all finite nested dictionaries", "why_tests_cant": "unbounded nesting", "anchors": ["src/cdtools/tools/data/data.py:nested_dict_to_numpy", "src/cdtools/tools/data/data.py:nested_dict_to_torch"]}
{"id": "C16", "title": "CXI masks round-trip", "statement": "A boolean mask written with add_mask is read back identically by get_mask, and for any stored uint32 mask a pixel is reported good iff its value is 0 or 0x1000.", "quantifier": "all masks, all 2^32 stored pixel values", "why_tests_cant": "2^32 values times all shapes", "anchors": ["src/cdtools/tools/data/data.py:add_mask", "src/cdtools/tools/data/data.py:get_mask"]}
{"id": "C17", "title": "CXI translations, data, axes and shot-to-shot info round-trip", "statement": "add_ptycho_translations / get_ptycho_translations restore the same translations (sample motion is stored negated), add_data/get_data restore the patterns and axes, add_shot_to_shot_info/get_shot_to_shot_info restore the entry, each independently of whatever else is already in the file.", "quantifier": "all arrays and all prior file contents", "why_tests_cant": "all file contents", "anchors": ["src/cdtools/tools/data/data.py:add_ptycho_translations", "src/cdtools/tools/data/data.py:get_ptycho_translations", "src/cdtools/tools/data/data.py:add_data", "src/cdtools/tools/data/data.py:get_data", "src/cdtools/tools/data/data.py:add_shot_to_shot_info", "src/cdtools/tools/data/data.py:get_shot_to_shot_info"]}
{"id": "C18", "title": "CXI source and detector geometry round-trip", "statement": "add_source/get_wavelength restore the wavelength; with only an energy stored the wavelength is hc/E; add_detector/get_detector_geometry restore distance, basis and corner position, basis vectors being columns in memory and rows on disk.", "quantifier": "all wavelengths, energies, bases, distances and corners, and every subset of optional fields", "why_tests_cant": "field-presence combinations and real values", "anchors": ["src/cdtools/tools/data/data.py:add_source", "src/cdtools/tools/data/data.py:get_wavelength", "src/cdtools/tools/data/data.py:add_detector", "src/cdtools/tools/data/data.py:get_detector_geometry"]}
{"id": "C19", "title": "CXI entry and sample metadata round-trip", "statement": "Every string, number or date in entry_info and every supported field of sample_info written to a cxi file is read back.", "quantifier": "all metadata dictionaries", "why_tests_cant": "all dictionaries", "anchors": ["src/cdtools/tools/data/data.py:add_entry_info", "src/cdtools/tools/data/data.py:get_entry_info", "src/cdtools/tools/data/data.py:add_sample_info", "src/cdtools/tools/data/data.py:get_sample_info"]}
{"id": "C20", "title": "datasets survive to_cxi / from_cxi", "statement": "Writing a dataset to a cxi file by name or by handle and reading it back yields a dataset with equal patterns, translations, mask, background, wavelength, detector geometry and metadata.", "quantifier": "all datasets and all subsets of optional attributes", "why_tests_cant": "optional-attribute combinations", "anchors": ["src/cdtools/datasets/base.py:CDataset.to_cxi", "src/cdtools/datasets/base.py:CDataset.from_cxi", "src/cdtools/datasets/ptycho_2d_dataset.py:Ptycho2DDataset.to_cxi", "src/cdtools/datasets/ptycho_2d_dataset.py:Ptycho2DDataset.from_cxi"]}
{"id": "C21", "title": "NaN pixels never enter a dataset", "statement": "After construction no pattern contains a NaN, every detector pixel that was NaN in any exposure is masked off in the mask, no other mask bit changes and no other pixel value changes.", "quantifier": "all stacks of patterns with any NaN positions, with or without a supplied mask", "why_tests_cant": "all NaN placements", "anchors": ["src/cdtools/datasets/ptycho_2d_dataset.py:Ptycho2DDataset.__init__"]}
{"id": "C22", "title": "split partitions the dataset", "statement": "split() returns two datasets whose exposures are disjoint, together are the whole dataset, each in original order, with patterns, translations and intensities of an exposure kept together, and metadata equal; the choice depends only on the number of exposures.", "quantifier": "all dataset sizes (including those above 5000) and contents", "why_tests_cant": "all sizes; the selection table wraps at 5000", "anchors": ["src/cdtools/datasets/ptycho_2d_dataset.py:Ptycho2DDataset.split", "src/cdtools/datasets/random_selection.py"]}
{"id": "C23", "title": "pad keeps all per-pixel arrays aligned", "statement": "After pad(to_pad) every pattern, the mask, the background and the quantum efficiency mask have the same (enlarged) shape, original pixels keep their values at the shifted position, new pixels hold the pad values; int, pair and 4-tuple arguments are equivalent spellings.", "quantifier": "all shapes, all non-negative pads, all argument forms, all optional arrays", "why_tests_cant": "shape and optional-array combinations", "anchors": ["src/cdtools/datasets/ptycho_2d_dataset.py:Ptycho2DDataset.pad"]}
{"id": "C24", "title": "downsample conserves masked counts and geometry", "statement": "downsample(f) yields patterns whose pixel is the sum of the valid pixels of its f×f block, a mask true only where the block is usable, a background summed over the block, and a detector basis scaled by f; when f divides the shape the total valid counts are conserved, downsample(1) is the identity on valid pixels and downsample(a) then downsample(b) equals downsample(a*b): everywhere if there is a quantum efficiency mask or no mask, otherwise in everything but the counts of pixels that end up masked off.", "quantifier": "all shapes, factors, masks and optional arrays", "why_tests_cant": "all factors and shapes", "anchors": ["src/cdtools/datasets/ptycho_2d_dataset.py:Ptycho2DDataset.downsample"]}
{"id": "C25", "title": "translation filters keep exposures aligned", "statement": "remove_translations_mask and crop_translations keep exactly the exposures asked for (mask false; inside the inclusive box in either corner order), in order, with patterns, translations and intensities still corresponding; a mask of the wrong length given to remove_translations_mask, or a box containing no exposure given to crop_translations, raises ValueError and leaves the dataset unchanged (removing everything by mask is allowed).", "quantifier": "all masks, boxes and datasets, all sequences of filter calls", "why_tests_cant": "all filter sequences", "anchors": ["src/cdtools/datasets/ptycho_2d_dataset.py:Ptycho2DDataset.remove_translations_mask", "src/cdtools/datasets/ptycho_2d_dataset.py:Ptycho2DDataset.crop_translations"]}
{"id": "C26", "title": "indexing a dataset returns aligned exposures", "statement": "dataset[i] returns ((i, translations[i]), patterns[i]) for every valid i or index list, len(dataset) equals the number of exposures, and get_as only changes device/dtype of what is returned.", "quantifier": "all index expressions and datasets", "why_tests_cant": "all index lists", "anchors": ["src/cdtools/datasets/ptycho_2d_dataset.py:Ptycho2DDataset._load", "src/cdtools/datasets/base.py:CDataset.__getitem__", "src/cdtools/datasets/base.py:CDataset.get_as"]}
{"id": "C27", "title": "amplitude_mse is a masked squared distance and its normalizer is the per-pixel mean", "statement": "amplitude_mse is non-negative, zero iff amplitudes agree on every unmasked pixel, independent of masked pixels, additive over exposures; the normalized epoch loss equals the sum over all minibatches divided by the number of (unmasked) pixels, the divisor being frozen after the first epoch.", "quantifier": "all pattern stacks, masks, minibatch splits and numbers of epochs", "why_tests_cant": "real-valued data and all batchings", "anchors": ["src/cdtools/tools/losses/losses.py:amplitude_mse", "src/cdtools/tools/losses/losses.py:AmplitudeMSENormalizer"]}
{"id": "C28", "title": "intensity_mse is a masked squared distance, normalized to a per-pixel mean", "statement": "intensity_mse is non-negative, zero iff equal on unmasked pixels, independent of masked pixels, additive over exposures, and its normalized epoch loss is the total squared error divided by the number of unmasked pixels, independent of batching.", "quantifier": "all pattern stacks, masks, minibatch splits", "why_tests_cant": "real-valued data and all batchings", "anchors": ["src/cdtools/tools/losses/losses.py:intensity_mse", "src/cdtools/tools/losses/losses.py:IntensityMSENormalizer"]}
{"id": "C29", "title": "Poisson likelihood loss is minimal at the data", "statement": "For non-negative measured intensities, poisson_nll over all non-negative simulations is bounded below by its value where simulation plus epsilon equals the measurement; with subtract_min the result is non-negative; the normalized epoch loss is therefore non-negative, as documented.", "quantifier": "all non-negative measured and simulated intensities, all masks and epsilons", "why_tests_cant": "an inequality over the reals", "anchors": ["src/cdtools/tools/losses/losses.py:poisson_nll", "src/cdtools/tools/losses/losses.py:SimplePoissonNLLNormalizer"]}
{"id": "C30", "title": "simulated intensities stay within the detector's range", "statement": "intensity, incoherent_sum and quadratic_background never return more than the saturation value and, whenever saturation is given, never less than 0; without saturation the result is at least epsilon (plus the background); output is monotone in the incoming intensity.", "quantifier": "all wavefields, backgrounds, slices, saturations and oversampling factors", "why_tests_cant": "real-valued inputs", "anchors": ["src/cdtools/tools/measurements/measurements.py:intensity", "src/cdtools/tools/measurements/measurements.py:incoherent_sum", "src/cdtools/tools/measurements/measurements.py:quadratic_background"]}
{"id": "C31", "title": "incoherent sums depend only on the mutual coherence of the modes", "statement": "incoherent_sum adds the modes' intensities: it is invariant under reordering, per-mode phases and any unitary mixing of the modes, additive under concatenation of modes, and unchanged by appending zero modes.", "quantifier": "all numbers of modes, wavefields and unitaries", "why_tests_cant": "all unitaries", "anchors": ["src/cdtools/tools/measurements/measurements.py:incoherent_sum"]}
{"id": "C32", "title": "pixel oversampling averages whole blocks", "statement": "With oversampling n the measured pixel (i,j) is the mean over the n×n block starting at (n i, n j) of the simulated intensity, the output shape is the floor of the input shape by n, and total intensity is conserved up to the factor n^2 when n divides the shape.", "quantifier": "all shapes and oversampling factors", "why_tests_cant": "all shapes", "anchors": ["src/cdtools/tools/measurements/measurements.py:intensity", "src/cdtools/tools/measurements/measurements.py:incoherent_sum"]}
{"id": "C33", "title": "far-field propagation is unitary and inverted by inverse_far_field", "statement": "inverse_far_field(far_field(w)) = w and far_field(inverse_far_field(w)) = w for every wavefield of any even or odd shape; total intensity is preserved; propagation is linear and a uniform wave focuses on the centre pixel n//2.", "quantifier": "all shapes (even, odd, rectangular) and all complex wavefields", "why_tests_cant": "all shapes and complex fields", "anchors": ["src/cdtools/tools/propagators/propagators.py:far_field", "src/cdtools/tools/propagators/propagators.py:inverse_far_field"]}
{"id": "C34", "title": "near-field propagation with a phase-only propagator is invertible and energy preserving", "statement": "near_field with a unimodular propagator preserves total intensity, inverse_near_field undoes it on both sides, and propagating with P1 then P2 equals propagating with P1*P2.", "quantifier": "all shapes, wavefields and unimodular propagators", "why_tests_cant": "all fields and propagators", "anchors": ["src/cdtools/tools/propagators/propagators.py:near_field", "src/cdtools/tools/propagators/propagators.py:inverse_near_field"]}
{"id": "C35", "title": "angular spectrum propagators compose additively in distance", "statement": "The angular spectrum propagator for z1 times that for z2 (same sign) is the one for z1+z2, the one for -z is the inverse of the one for z on propagating frequencies, z=0 is the identity on them, and evanescent frequencies are never amplified.", "quantifier": "all distances, wavelengths, spacings and frequencies", "why_tests_cant": "real parameters", "anchors": ["src/cdtools/tools/propagators/propagators.py:generate_angular_spectrum_propagator", "src/cdtools/tools/propagators/propagators.py:generate_generalized_angular_spectrum_propagator"]}
{"id": "C36", "title": "convolve_1d is circular convolution along one axis", "statement": "convolve_1d(image, kernel, dim) is the circular convolution along dim with the kernel's origin at the array centre (or at index 0 if already shifted), for either axis, acting independently on every line; it is linear in both arguments.", "quantifier": "all sizes, kernels and images", "why_tests_cant": "all sizes", "anchors": ["src/cdtools/tools/image_processing/image_processing.py:convolve_1d"]}
{"id": "C37", "title": "subpixel shifts agree with rolls at integer shifts and preserve energy", "statement": "sinc_subpixel_shift by an integer vector equals rolling the image, preserves total intensity for every real shift, and shifting by s then t equals shifting by s+t.", "quantifier": "all shapes, images and real shifts", "why_tests_cant": "real shifts and all sizes", "anchors": ["src/cdtools/tools/image_processing/image_processing.py:sinc_subpixel_shift", "src/cdtools/tools/interactions/interactions.py:ptycho_2D_sinc"]}
{"id": "C38", "title": "find_pixel_shift finds the roll between two images", "statement": "If im1 is im2 rolled by s (|s| within half the image), up to a constant factor, find_pixel_shift(im1, im2) returns exactly s (the shift taking im2 to im1, which is the opposite of what the docstring says); the result always lies in [-(n//2), n-1-n//2] on each axis and maximizes the normalized correlation.", "quantifier": "all shapes, images and rolls", "why_tests_cant": "all images", "anchors": ["src/cdtools/tools/image_processing/image_processing.py:find_pixel_shift", "src/cdtools/tools/image_processing/image_processing.py:find_subpixel_shift"]}
{"id": "C39", "title": "centroids are shift- and scale-equivariant", "statement": "centroid of a non-negative image is inside the image, is unchanged by scaling, and moves by exactly the shift when the support is translated; center() shifts all images of a stack by one common vector, preserves every image's power, leaves centred stacks alone and, when the needed move is a whole number of pixels that wraps nothing around, lands exactly on the centre (n/2, m/2).", "quantifier": "all images and shifts", "why_tests_cant": "all images", "anchors": ["src/cdtools/tools/image_processing/image_processing.py:centroid", "src/cdtools/tools/image_processing/image_processing.py:centroid_sq", "src/cdtools/tools/image_processing/image_processing.py:center"]}
{"id": "C40", "title": "fourier_upsample and hann_window do what they say for all sizes", "statement": "fourier_upsample by u interpolates its input (every u-th pixel is an original pixel), preserves total intensity, and with preserve_mean the mean value and mean intensity; hann_window vanishes on all four edges, is symmetric and leaves the centre unchanged, for every image shape.", "quantifier": "all shapes, even and odd, square and rectangular", "why_tests_cant": "parity and aspect-ratio dependent", "anchors": ["src/cdtools/tools/image_processing/image_processing.py:fourier_upsample", "src/cdtools/tools/image_processing/image_processing.py:hann_window"]}
{"id": "C41", "title": "every exposure's window lies inside the object array", "statement": "With the object size and offset produced by calc_object_setup, for every translation in the scan the window read by ptycho_2D_round, ptycho_2D_linear and ptycho_2D_sinc lies inside the object array, for any non-negative padding and both shift modes.", "quantifier": "all scans, probe shapes and paddings", "why_tests_cant": "real-valued extremes, rounding half-cases", "anchors": ["src/cdtools/tools/initializers/initializers.py:calc_object_setup", "src/cdtools/tools/interactions/interactions.py:ptycho_2D_round", "src/cdtools/tools/interactions/interactions.py:ptycho_2D_linear", "src/cdtools/tools/interactions/interactions.py:ptycho_2D_sinc"]}
{"id": "C42", "title": "the three interaction models agree at integer translations", "statement": "At integer translations ptycho_2D_round, ptycho_2D_linear (both shift modes) and ptycho_2D_sinc all return probe times the object window at that offset, exposure by exposure and mode by mode.", "quantifier": "all probes, objects, mode counts and integer translations", "why_tests_cant": "all arrays", "anchors": ["src/cdtools/tools/interactions/interactions.py:ptycho_2D_round", "src/cdtools/tools/interactions/interactions.py:ptycho_2D_linear", "src/cdtools/tools/interactions/interactions.py:ptycho_2D_sinc"]}
{"id": "C43", "title": "translations_to_pixel and pixel_to_translations are mutual inverses", "statement": "For every nondegenerate probe basis and surface normal, pixel_to_translations(basis, translations_to_pixel(basis, t)) returns t with its component along the beam set to zero, and translations_to_pixel(basis, pixel_to_translations(basis, p)) returns p for every p; both are linear.", "quantifier": "all bases, normals and translations", "why_tests_cant": "real linear algebra", "anchors": ["src/cdtools/tools/interactions/interactions.py:translations_to_pixel", "src/cdtools/tools/interactions/interactions.py:pixel_to_translations"]}
{"id": "C44", "title": "RPI interaction keeps zero frequency centred and energy scaled", "statement": "RPI_interaction upsamples the object by centred Fourier zero padding so that the object's zero frequency stays at the array centre for all parities, a constant object gives a constant upsampled object, mean value and mean intensity are kept, and when the probe sampling is a multiple of the object's the object's pixels reappear unchanged.", "quantifier": "all object and probe shapes", "why_tests_cant": "parity combinations", "anchors": ["src/cdtools/tools/interactions/interactions.py:RPI_interaction", "src/cdtools/tools/initializers/initializers.py:RPI_spectral_init"]}
{"id": "C45", "title": "initial probes are normalized and mode orders enumerated once", "statement": "gaussian_probe has the mean intensity of the dataset; generate_subdominant_modes enumerates each Hermite order (i,j) exactly once by increasing total order starting after the dominant mode and gives modes the documented power.", "quantifier": "all shapes, numbers of modes and patterns", "why_tests_cant": "unbounded enumeration", "anchors": ["src/cdtools/tools/initializers/initializers.py:gaussian_probe", "src/cdtools/tools/initializers/initializers.py:generate_subdominant_modes"]}
{"id": "C46", "title": "exit_wave_geometry is reciprocal to the detector geometry", "statement": "The exit-wave basis times the shape is dual to the detector basis times the sampling: basis_ew^T · basis_det · shape = lambda * distance * identity.", "quantifier": "all detector bases, distances, wavelengths, shapes", "why_tests_cant": "real linear algebra", "anchors": ["src/cdtools/tools/initializers/initializers.py:exit_wave_geometry"]}
{"id": "C47", "title": "standardize removes only physically meaningless freedoms", "statement": "Every exit wave (probe mode times translated object) changes only by a constant phase factor under standardize, so every simulated pattern is unchanged; the first probe mode has mean intensity one, the sums of every probe mode and of the object over the slice are real and non-negative; without ramp correction, standardizing twice equals standardizing once and reconstructions that differ only by scaling and constant phases have the same standard form; with ramp correction the spectral centroid of the first probe mode is at zero frequency.", "quantifier": "all probes, objects, mode counts, slices and translations", "why_tests_cant": "all complex arrays", "anchors": ["src/cdtools/tools/analysis/analysis.py:standardize"]}
{"id": "C48", "title": "orthogonalize_probes preserves the density matrix", "statement": "The orthogonalized modes are pairwise orthogonal, sorted by decreasing power, and have the same mutual coherence (so the same simulated patterns) as the input; total power is preserved.", "quantifier": "all numbers of modes and shapes", "why_tests_cant": "all complex matrices", "anchors": ["src/cdtools/tools/analysis/analysis.py:orthogonalize_probes", "src/cdtools/tools/analysis/analysis.py:product_svd"]}
{"id": "C49", "title": "rms error and fidelity are invariant to global phase", "statement": "calc_rms_error with align_phases is the minimum over global phases of the root mean square distance, symmetric, zero iff the fields agree up to a phase; calc_fidelity is trace(sqrt(sqrt(dm_1) dm_2 sqrt(dm_1)))**2, lies between 0 and the product of powers and depends on the modes only through the density matrices; calc_generalized_rms_error is well defined, reduces to calc_rms_error for single modes and is zero iff the density matrices are equal.", "quantifier": "all complex fields and phases", "why_tests_cant": "minimization over a continuum", "anchors": ["src/cdtools/tools/analysis/analysis.py:calc_rms_error", "src/cdtools/tools/analysis/analysis.py:calc_fidelity", "src/cdtools/tools/analysis/analysis.py:calc_generalized_rms_error"]}
{"id": "C50", "title": "FRC values are correlation coefficients", "statement": "Every Fourier ring correlation value has modulus at most 1, equals the phase of the factor (1 for a positive factor) on every populated ring when the images are equal up to a constant factor, does not change when both images are shifted together, and every frequency pixel is counted in at most one ring, exactly one with limit='corner'.", "quantifier": "all image pairs, windows and ring counts", "why_tests_cant": "Cauchy–Schwarz over all images", "anchors": ["src/cdtools/tools/analysis/analysis.py:calc_frc"]}
{"id": "C51", "title": "mode power fractions and entropy are functions of the normalized density matrix", "statement": "Mode power fractions are non-negative, sum to one, are scale invariant and depend only on the density matrix of the probe; von Neumann entropy is scale invariant, non-negative, zero for a pure state, and computed identically for a single matrix and for a stack.", "quantifier": "all density matrices", "why_tests_cant": "all matrices", "anchors": ["src/cdtools/tools/analysis/analysis.py:calc_mode_power_fractions", "src/cdtools/tools/analysis/analysis.py:calc_vn_entropy"]}
{"id": "C52", "title": "inspect shows exactly the requested plots and never leaks callbacks", "statement": "inspect draws a plot iff its plot level does not exceed the model's and its condition holds; figures the user closed are not reopened unless asked; after any number of inspect calls each figure has only the callbacks of its latest drawing.", "quantifier": "all plot lists, levels, conditions, close events and inspect sequences", "why_tests_cant": "unbounded event histories", "anchors": ["src/cdtools/models/base.py:CDIModel.inspect", "src/cdtools/models/base.py:CDIModel._inspect_individual_figures", "src/cdtools/models/base.py:CDIModel._inspect_panel"]}
{"id": "C53", "title": "FancyPtycho option dispatch", "statement": "FancyPtycho accepts exactly the documented loss names and density-matrix ranks: dm_rank greater than n_modes raises, -1 or n_modes means full rank, None or 0 means no density matrix; anything else gives weights of shape (N, dm_rank, n_modes); obj_view_crop always leaves a slice inside the object.", "quantifier": "all option values", "why_tests_cant": "all option values", "anchors": ["src/cdtools/models/fancy_ptycho.py:FancyPtycho.__init__", "src/cdtools/models/fancy_ptycho.py:FancyPtycho.from_dataset"]}
{"id": "C54", "title": "FancyPtycho initial parameters are the supplied ones and its results file can be reloaded", "statement": "Every constructor argument initializes the parameter of the same name; the model's own propagators are inverse to each other; save_results works for every constructible model, and from_results_dict rebuilds a model with the same parameters, buffers, loss and history from it.", "quantifier": "all constructor argument combinations", "why_tests_cant": "argument plumbing over all combinations", "anchors": ["src/cdtools/models/fancy_ptycho.py:FancyPtycho.__init__", "src/cdtools/models/fancy_ptycho.py:FancyPtycho.save_results", "src/cdtools/models/fancy_ptycho.py:FancyPtycho.from_results_dict", "src/cdtools/models/fancy_ptycho.py:FancyPtycho.backward_propagator"]}
{"id": "C55", "title": "sim_to_dataset simulates every exposure in order for every calculation width", "statement": "The simulated dataset has one pattern per requested exposure, in order, equal to the model's forward pass on that exposure, independent of calculation_width.", "quantifier": "all exposure lists and widths", "why_tests_cant": "all sizes", "anchors": ["src/cdtools/models/fancy_ptycho.py:FancyPtycho.sim_to_dataset"]}
{"id": "C56", "title": "the generalized angular spectrum propagator never amplifies", "statement": "For every pair of basis vectors, wavelength, offset vector, propagation vector and spatial frequency, the modulus of generate_generalized_angular_spectrum_propagator is at most one: propagating waves keep their power, evanescent ones are suppressed.", "quantifier": "all bases, wavelengths, offsets, propagation vectors and frequencies", "why_tests_cant": "a modulus bound over a continuum of geometries", "anchors": ["src/cdtools/tools/propagators/propagators.py:generate_generalized_angular_spectrum_propagator"]}
{"id": "C57", "title": "find_shift recovers integer shifts exactly at every resolution", "statement": "If im1 is im2 rolled by an integer vector s within half the image (and scaled by a constant), find_shift(im1, im2, resolution) returns exactly s for every resolution and every image size.", "quantifier": "all images, sizes, shifts and resolutions", "why_tests_cant": "must hold for every image and size", "anchors": ["src/cdtools/tools/image_processing/image_processing.py:find_shift", "src/cdtools/tools/image_processing/image_processing.py:find_subpixel_shift"]}
{"id": "C58", "title": "project_translations_to_sample meets the sample plane", "statement": "For every sample basis not parallel to the beam and every translation, the returned pixel position p and propagation distance d are the unique ones with basis*p = translation + d*z.", "quantifier": "all sample bases and translations", "why_tests_cant": "real linear algebra over all geometries", "anchors": ["src/cdtools/tools/interactions/interactions.py:project_translations_to_sample"]}
{"id": "C59", "title": "gaussian_probe with a propagation distance is the propagated focal profile", "statement": "gaussian_probe(propagation_distance=z) is the focal Gaussian of the given width Fresnel-propagated by z, in the sign convention of the library's own angular spectrum propagator, with the power of the dataset.", "quantifier": "all widths, wavelengths and propagation distances", "why_tests_cant": "an identity between continuum diffraction integrals", "anchors": ["src/cdtools/tools/initializers/initializers.py:gaussian_probe", "src/cdtools/tools/propagators/propagators.py:generate_angular_spectrum_propagator"]}
{"id": "C60", "title": "SHARP_style_probe matches the measured mean pattern", "statement": "The far field of the unpropagated SHARP-style probe has, at every detector pixel, the background-subtracted mean measured intensity of the unmasked data (zero where that is negative), placed centrally when oversampling; applying a propagation distance never adds power.", "quantifier": "all datasets, masks, backgrounds, oversampling factors and propagation distances", "why_tests_cant": "an identity over all datasets", "anchors": ["src/cdtools/tools/initializers/initializers.py:SHARP_style_probe"]}
{"id": "C61", "title": "RPI_spectral_init iterates with the RPI forward model and its adjoint", "statement": "The operators iterated by RPI_spectral_init are the linear RPI forward model and its exact adjoint, for every probe and object size.", "quantifier": "all probe shapes, object shapes, probes and objects", "why_tests_cant": "an operator identity over all sizes", "anchors": ["src/cdtools/tools/initializers/initializers.py:RPI_spectral_init", "src/cdtools/tools/interactions/interactions.py:RPI_interaction"]}
{"id": "C62", "title": "tidy_probes changes the representation, not the light", "statement": "tidy_probes never changes any simulated pattern, for every model, weight scheme and exposure; afterwards the basis modes, and the modes of every exposure, are orthogonal and sorted by power, and the basis carries the mean power of the exposures. get_probe_intensities returns the power of every exposure relative to the basis. It fails only for light fields with fewer independent modes than the basis.", "quantifier": "all models, probes, weights, exposures and SVD routines", "why_tests_cant": "an invariance over all complex probes and weights", "anchors": ["src/cdtools/models/fancy_ptycho.py:FancyPtycho.tidy_probes", "src/cdtools/models/fancy_ptycho.py:FancyPtycho.get_probe_intensities"]}
{"id": "C63", "title": "corrected_translations carry the whole position correction", "statement": "A FancyPtycho model without translation offsets, evaluated at corrected_translations of the dataset, simulates exactly the patterns of the original model at the original translations.", "quantifier": "all models, offsets, geometries and exposures", "why_tests_cant": "an identity over all geometries", "anchors": ["src/cdtools/models/fancy_ptycho.py:FancyPtycho.corrected_translations", "src/cdtools/models/fancy_ptycho.py:FancyPtycho.interaction"]}
{"id": "C64", "title": "the scheduler sees exactly the recorded losses", "statement": "With a ReduceLROnPlateau scheduler, every completed epoch steps the scheduler exactly once, after the optimizer, with the loss that is appended to loss_history and returned; a failed epoch does not step it; otherwise the epoch is the one without scheduler.", "quantifier": "all epochs, data, optimizers and schedulers", "why_tests_cant": "must hold for all run histories", "anchors": ["src/cdtools/reconstructors/base.py:Reconstructor.run_epoch", "src/cdtools/reconstructors/adam.py:AdamReconstructor.optimize"]}
{"id": "C65", "title": "ambiguities of ptychography leave the FancyPtycho patterns unchanged", "statement": "Rescaling object and probe inversely (or shifting an exponentiated object by a constant), changing the basis of the probe modes with the weights, unitarily mixing the modes of each exposure, and padding the object while shifting min_translation change no simulated pattern.", "quantifier": "all models, constants, basis changes, unitaries and paddings", "why_tests_cant": "invariances over continuous families", "anchors": ["src/cdtools/models/fancy_ptycho.py:FancyPtycho.interaction", "src/cdtools/models/fancy_ptycho.py:FancyPtycho.measurement"]}
{"id": "C66", "title": "removing a phase ramp or an amplitude exponent leaves the predictions unchanged", "statement": "remove_phase_ramp, remove_amplitude_exponent and the phase corrections of standardize_reconstruction_set replace object, probe and weights by others that predict the same diffraction patterns (the amplitude correction up to one factor common to all exposures), whatever the optimizer returns; with the phase-offset correction the sum of the object over the window is real and non-negative.", "quantifier": "all objects, probe modes, weights, windows, translations and optimizer results", "why_tests_cant": "an invariance over continuous families and arbitrary optimizer results", "anchors": ["src/cdtools/tools/analysis/analysis.py:remove_phase_ramp", "src/cdtools/tools/analysis/analysis.py:remove_amplitude_exponent", "src/cdtools/tools/analysis/analysis.py:standardize_reconstruction_set"]}
{"id": "C67", "title": "the illumination map is the intensity deposited on the object", "statement": "make_illumination_map on the results of a reconstruction returns, at every object pixel, the sum over the exposures of the probe intensity placed at the translations; its total is the number of exposures times the total probe intensity.", "quantifier": "all results, probes, scans and total intensities", "why_tests_cant": "an identity over all scans", "anchors": ["src/cdtools/tools/analysis/analysis.py:make_illumination_map"]}
{"id": "C68", "title": "synthesize_reconstructions averages aligned reconstructions", "statement": "The synthesized probe and object are the means over the standardized, aligned reconstructions; the returned stack has one object per reconstruction in order, each a translate of its standardized object; reconstructions equal up to the standardization are returned unmoved.", "quantifier": "all lists of reconstructions and slices", "why_tests_cant": "must hold for every length and content of the list", "anchors": ["src/cdtools/tools/analysis/analysis.py:synthesize_reconstructions"]}
{"id": "C69", "title": "consistency PRTF and deconvolved cross-correlation", "statement": "The deconvolved cross-correlation has total power one, is a single peak at the displacement for translated copies, and is reflected when the images are exchanged; the consistency PRTF of a ring is the mean ratio of the ring intensities, one for perfectly consistent reconstructions and between zero and one in general.", "quantifier": "all images, lists of reconstructions, bins and pixel sizes", "why_tests_cant": "identities and bounds over all complex images", "anchors": ["src/cdtools/tools/analysis/analysis.py:calc_consistency_prtf", "src/cdtools/tools/analysis/analysis.py:calc_deconvolved_cross_correlation"]}
{"id": "C70", "title": "the generalized FRC generalizes the FRC", "statement": "calc_generalized_frc lies between zero and one, is one for equal stacks, does not depend on how the incoherent modes are represented, agrees with the modulus of calc_frc for single modes, and uses the same thresholds and defaults; the SSNR reported by the standardization functions is the one at which the FRC equals its threshold.", "quantifier": "all mode stacks, mixing matrices, bins and limits", "why_tests_cant": "invariances and bounds over all complex images", "anchors": ["src/cdtools/tools/analysis/analysis.py:calc_generalized_frc", "src/cdtools/tools/analysis/analysis.py:calc_frc", "src/cdtools/tools/analysis/analysis.py:standardize_reconstruction_set", "src/cdtools/tools/analysis/analysis.py:standardize_reconstruction_pair"]}
{"id": "C71", "title": "calc_spectral_info is the recorded intensity per field of view", "statement": "calc_spectral_info returns the recorded intensity in the valid pixels scaled to one field of view (the mean pattern for collinear scans), independent of the order of the exposures and of the content of bad pixels; the profile is the mean over the valid pixels of each ring.", "quantifier": "all datasets, masks, areas and bins", "why_tests_cant": "must hold for all datasets and masks", "anchors": ["src/cdtools/tools/analysis/analysis.py:calc_spectral_info"]}
{"id": "C72", "title": "RPI forward model: predicted patterns and their gauge freedoms", "statement": "The pattern an RPI model simulates is the detector background plus the sum, over all probe and object modes, of the far-field intensities of (mixed probe) times (object upsampled to the grid of the probe), binned over oversampling blocks and clipped at the saturation; it is the same for every exposure of a batch, ignores object pixels outside the support, is unchanged by isometric mixing of probe modes or (linear) object modes and by moving a scalar between probe and object; adding a global complex constant to an exponentiated object changes it as documented; the regularizer is a non-negative weighted power of the object which vanishes only for the zero object.", "quantifier": "all probes, weight matrices, objects, supports, mode counts, indices, mixing matrices, scalars", "why_tests_cant": "invariances over all complex arrays and unitary matrices", "anchors": ["src/cdtools/models/rpi.py:interaction", "src/cdtools/models/rpi.py:measurement", "src/cdtools/models/rpi.py:regularizer"]}
{"id": "C73", "title": "RPI construction gives a consistent initial model", "statement": "Constructing an RPI model from a dataset or a calibration: initialization names are recognized up to case and white space and anything else raises KeyError; the model transmits the initial guess; phase_only restricts the object to phases; the object grid covers the region of the probe; the default support is the thresholded illumination, grown by one pixel; default background, mask and geometry fit the detector.", "quantifier": "all names, guesses, sizes, bases, thresholds, probes, mode counts and batch sizes", "why_tests_cant": "depends on all combinations of sizes and options", "anchors": ["src/cdtools/models/rpi.py:__init__", "src/cdtools/models/rpi.py:from_dataset", "src/cdtools/models/rpi.py:from_calibration", "src/cdtools/models/rpi.py:init_obj"]}
{"id": "C74", "title": "RPI models survive save_results / from_results_dict", "statement": "Loading the results saved by an RPI model restores every parameter and buffer, the loss function, the loss history, the epoch, the training history and which parameters are refined.", "quantifier": "all models reachable from the constructor by changing values", "why_tests_cant": "quantifies over all constructor arguments and training histories", "anchors": ["src/cdtools/models/rpi.py:save_results", "src/cdtools/models/rpi.py:from_results_dict"]}
{"id": "C75", "title": "multislice forward model: predicted patterns and their gauge freedoms", "statement": "The pattern a MultislicePtycho model simulates is that of the multislice method: the incident modes pass every slice of the object, are propagated between the slices and to the detector; it equals the pattern of FancyPtycho for a single slice, is unchanged by transparent slices behind the object, by constant phases, by moving scalars between probe and slices and by tidy_probes, conserves energy for phase objects, and moving all positions by corrected_translations reproduces the same pattern without offsets.", "quantifier": "all probes, weights, slices, propagators, positions, mode counts, scalars", "why_tests_cant": "identities over all complex arrays and any number of slices", "anchors": ["src/cdtools/models/multislice_ptycho.py:interaction", "src/cdtools/models/multislice_ptycho.py:measurement", "src/cdtools/models/multislice_ptycho.py:tidy_probes", "src/cdtools/models/multislice_ptycho.py:corrected_translations"]}
{"id": "C76", "title": "multislice construction and results", "statement": "MultislicePtycho.from_dataset builds the angular-spectrum propagator over dz on the object grid, weights exposures such that their simulated power is proportional to the recorded intensities, fits every oversampling, and shows the scanned part of the object; loading saved results restores parameters, buffers, loss and histories.", "quantifier": "all geometries, intensities, mode counts, oversampling factors, crops; all reachable models", "why_tests_cant": "depends on all combinations of sizes and options", "anchors": ["src/cdtools/models/multislice_ptycho.py:__init__", "src/cdtools/models/multislice_ptycho.py:from_dataset", "src/cdtools/models/multislice_ptycho.py:save_results", "src/cdtools/models/multislice_ptycho.py:from_results_dict"]}
{"id": "C77", "title": "high-NA propagation to a flat or lens-imaged detector", "statement": "high_NA_far_field with the maps of generate_high_NA_k_intensity_map shows at every detector pixel the far field of the sample at the momentum transfer of light reaching this pixel (relative to the middle of the detector), interpolated between the frequencies of the far field and zero outside of them; it is linear; with a lens and an untilted sample it agrees with far_field; intensities are corrected for the solid angle of the pixels.", "quantifier": "all sample and detector bases, distances, wavelengths, wavefields, pixels, with and without lens", "why_tests_cant": "real geometry: holds for every detector orientation and pixel", "anchors": ["src/cdtools/tools/propagators/propagators.py:generate_high_NA_k_intensity_map", "src/cdtools/tools/propagators/propagators.py:high_NA_far_field"]}
{"id": "C78", "title": "Bragg forward model: predicted patterns and their gauge freedoms", "statement": "The pattern a Bragg2DPtycho model simulates is what reaches the (tilted) detector of (probe, propagated along the beam to the point where it meets the tilted sample plane) times (object at this point); free propagation is exact for plane waves and additive in the distance; it is what FancyPtycho simulates when nothing is propagated; phase objects conserve energy; it depends on the probe modes only by their mutual coherence, is unchanged by moving a scalar between probe and object, and corrected_translations reproduces it without offsets.", "quantifier": "all sample bases, tilts, distances, probes, supports, weights, objects, translations, offsets, mode counts, scalars", "why_tests_cant": "identities over all complex arrays and geometries", "anchors": ["src/cdtools/models/bragg_2d_ptycho.py:interaction", "src/cdtools/models/bragg_2d_ptycho.py:forward_propagator", "src/cdtools/models/bragg_2d_ptycho.py:measurement", "src/cdtools/models/bragg_2d_ptycho.py:corrected_translations", "src/cdtools/models/bragg_2d_ptycho.py:__init__"]}
{"id": "C79", "title": "Bragg construction and results", "statement": "Bragg2DPtycho.from_dataset puts the object grid in the sample plane: it lies in the plane of the sample and is seen from the detector with the resolution of the exit wave; the surface normal is the one given explicitly, else that of the scattering mode, else that of the dataset; every exposure of the dataset can be simulated and the default view covers the scan; loading saved results restores parameters, buffers, loss and histories.", "quantifier": "all geometries, scans, padding, crops, scattering modes; all reachable models", "why_tests_cant": "depends on all geometries and combinations of options", "anchors": ["src/cdtools/models/bragg_2d_ptycho.py:from_dataset", "src/cdtools/models/bragg_2d_ptycho.py:save_results", "src/cdtools/models/bragg_2d_ptycho.py:from_results_dict"]}
{"id": "C80", "title": "SimplePtycho: initial model, predicted patterns and results", "statement": "SimplePtycho.from_dataset gives a model that predicts, for every exposure, exactly the mean of the masked and background-subtracted patterns (plus 1e-7) and can simulate every exposure whatever probe and object become; the probe is scaled to a largest modulus of 1; a pattern is the intensity of the far field of probe times object at the rounded position and equals that of FancyPtycho at whole pixel positions; moving a scalar or a phase ramp between probe and object changes no pattern; phase objects conserve energy; loading saved results restores the model, with the amplitude loss.", "quantifier": "all datasets, masks, backgrounds, scans, probes, objects, scalars and ramps; all reachable models", "why_tests_cant": "identities over all arrays and scans", "anchors": ["src/cdtools/models/simple_ptycho.py:__init__", "src/cdtools/models/simple_ptycho.py:from_dataset", "src/cdtools/models/simple_ptycho.py:interaction", "src/cdtools/models/simple_ptycho.py:measurement", "src/cdtools/models/simple_ptycho.py:save_results", "src/cdtools/models/simple_ptycho.py:from_results_dict"]}
{"id": "C81", "title": "browsing stacks of images, datasets and comparisons", "statement": "In a figure made from a stack of images (any number of extra axes), the down and up keys go to the next and previous image in row-major order, cyclically, so that every image is reached; after any history of redraws, keys and slider moves the figure shows the image of the latest data at the index chosen, and the sliders agree with it. The dataset browser and compare always show one of the exposures, moving right (down) goes through all of them, and opposite moves undo each other; compare's difference image is simulated minus measured.", "quantifier": "all stack shapes, indices and event histories", "why_tests_cant": "event histories are unbounded and stack shapes arbitrary", "anchors": ["src/cdtools/tools/plotting/plotting.py:plot_image", "src/cdtools/tools/plotting/plotting.py:plot_nanomap_with_images", "src/cdtools/models/base.py:compare"]}
{"id": "C82", "title": "detector pixels of finite size", "statement": "With simulate_finite_pixels=True, intensity and incoherent_sum return, in the shape of the detector, the diffraction intensity averaged over the area of every detector pixel (the field between the pixel centres being the Fourier transform of the real-space wave), so that the total intensity is kept; the result depends on the incoherent modes through their mutual coherence only.", "quantifier": "all wavefields, detector shapes, mode counts and settings", "why_tests_cant": "an integral identity over all complex arrays and sizes", "anchors": ["src/cdtools/tools/measurements/measurements.py:intensity", "src/cdtools/tools/measurements/measurements.py:incoherent_sum"]}
{"id": "C83", "title": "center_probes", "statement": "center_probes moves all probe modes in real space by one common vector, towards the center of the array; powers and overlaps of the modes are kept and nothing but the probe changes; the moved probe with the object moved alike predicts the same patterns.", "quantifier": "all probes with light, mode counts, iterations, real- or Fourier-space probes", "why_tests_cant": "must hold for all complex probe arrays and sizes", "anchors": ["src/cdtools/models/fancy_ptycho.py:center_probes", "src/cdtools/models/multislice_ptycho.py:center_probes"]}
{"id": "C84", "title": "light field of single exposures", "statement": "get_rhos gives the density matrices of the exposures: Hermitian, positive, with the mutual coherence of the light of each exposure as sum of rho_jl b_j b_l*, independent of the unitary mixing of the modes; the amplitudes shown by plot_wavefront_variation add up in square to the intensity of the light of the exposure, and its root sum image is the square root of this.", "quantifier": "all weight matrices, probes, exposures and pixels", "why_tests_cant": "matrix identities over all complex arrays", "anchors": ["src/cdtools/models/multislice_ptycho.py:get_rhos", "src/cdtools/models/fancy_ptycho.py:plot_wavefront_variation"]}
{"id": "C85", "title": "Multislice2DPtycho", "statement": "Multislice2DPtycho predicts the detector image of the far field of the multislice exit wave: the light of the exposure is multiplied by every slice at the scan position and propagated over dz between slices, also with aliasing prevention and at subpixel positions; with one slice it agrees with FancyPtycho; phase slices keep the energy; only the mutual coherence of the modes matters; tidy_probes does not change the predictions; the bandlimit limits the propagation; corrected translations reproduce the patterns without offsets; from_dataset makes a model from a dataset.", "quantifier": "all probes, slices, positions, weights, settings", "why_tests_cant": "must hold for all complex arrays, sizes and slice counts", "anchors": ["src/cdtools/models/multislice_2d_ptycho.py:Multislice2DPtycho"]}
{"id": "C86", "title": "several object modes in FancyPtycho", "statement": "With n_obj_modes object modes a FancyPtycho model predicts an incoherent mixture for any number of probe modes: with one object mode the usual prediction; with one probe mode the sum of the intensities each object alone gives; with more of both, every probe mode illuminates every object, so the prediction does not depend on the order of the probe modes; the additional modes start weak compared to the first.", "quantifier": "all probes, object modes, mode counts, positions, weights", "why_tests_cant": "must hold for all complex arrays and mode counts", "anchors": ["src/cdtools/models/fancy_ptycho.py:FancyPtycho.interaction", "src/cdtools/models/fancy_ptycho.py:from_dataset", "src/cdtools/tools/interactions/interactions.py:ptycho_2D_sinc"]}
{"id": "C87", "title": "scattering matrix interaction", "statement": "ptycho_2D_sinc_s_matrix returns exit waves of the documented shape for every probe and S-matrix of matching size.", "quantifier": "all probe shapes and S-matrix sizes", "why_tests_cant": "must hold for every shape", "anchors": ["src/cdtools/tools/interactions/interactions.py:ptycho_2D_sinc_s_matrix"]}
{"id": "C88", "title": "the model behind simulated data has the lowest loss", "statement": "If sim_to_dataset makes data from a FancyPtycho model, then on this data, however it is divided in minibatches and chunks and whatever the mask, the epoch loss of the model itself is 0 for the three losses; whatever other models of non-negative predictions take its place during the epoch, the recorded amplitude and intensity losses are at least 0, and 0 only if every prediction agrees with the data on all unmasked pixels; the Poisson loss is at least -1e-6 per pixel over its normalization. The gradient of the amplitude and intensity losses at the true model is zero, that of the Poisson loss only up to its epsilon.", "quantifier": "all models, datasets, masks, minibatches, chunk widths and histories of parameters during the epoch", "why_tests_cant": "a statement about all models and all data divisions", "anchors": ["src/cdtools/reconstructors/base.py:run_epoch", "src/cdtools/models/fancy_ptycho.py:sim_to_dataset", "src/cdtools/tools/losses/losses.py:amplitude_mse"]}
{"id": "C89", "title": "units and positions in plots", "statement": "Plots show positions in the units of their labels: get_units_factor gives the number of units in a meter for every documented unit (in any case) and a documented error for others; plot_image with a basis places pixel (i, j) at its real-space coordinates seen from the view direction, and pixels of the image cover the axes exactly; plot_translations, plot_translations_and_originals and plot_nanomap draw point k at translation k in these units (negated for another convention than 'probe'), also when several plots share one figure.", "quantifier": "all units, bases, view directions, image shapes, lists of translations and sequences of plots", "why_tests_cant": "must hold for every basis, unit and list of positions", "anchors": ["src/cdtools/tools/plotting/plotting.py:get_units_factor", "src/cdtools/tools/plotting/plotting.py:plot_image", "src/cdtools/tools/plotting/plotting.py:plot_translations", "src/cdtools/tools/plotting/plotting.py:plot_nanomap", "src/cdtools/models/fancy_ptycho.py:plot_translations_and_originals"]}
{"id": "C90", "title": "colors of complex images", "statement": "colorize gives two pixels of a complex image the same color exactly if they have the same value; the brightness is the amplitude relative to the largest one; a common positive factor does not change the colors; zero is black.", "quantifier": "all complex images and color tables", "why_tests_cant": "injectivity over all complex values", "anchors": ["src/cdtools/tools/plotting/plotting.py:colorize"]}
{"id": "C91", "title": "figures that are redrawn", "statement": "However often plot_image (and its variants) is called with the same figure, the figure shows the data of the latest call with the color limits and the basis given in this call; phases are shown from -pi to pi with a cyclic map.", "quantifier": "all sequences of plots and clearings of a figure", "why_tests_cant": "must hold for every history of a figure", "anchors": ["src/cdtools/tools/plotting/plotting.py:plot_image", "src/cdtools/tools/plotting/plotting.py:plot_phase"]}
{"id": "C92", "title": "STEM style probe guess", "statement": "STEM_style_probe returns a probe whose far field is a uniform aperture without aberrations: constant amplitude in the cone of the convergence angle around the beam (a disc on a perpendicular detector), zero outside, with the mean intensity of the data and with the centroid of the data, for every angle and oversampling; a propagation distance changes phases in the far field only.", "quantifier": "all datasets, detector geometries, angles, oversamplings, probe shapes and distances", "why_tests_cant": "must hold for all geometries and data", "anchors": ["src/cdtools/tools/initializers/initializers.py:STEM_style_probe"]}
{"id": "C93", "title": "near-field geometry and probe guess", "statement": "FancyPtycho.from_dataset with near_field uses a pixel size and a distance that are equivalent to the projection geometry given by the distances (magnification, effective distance); the initial probe, propagated by the model to the detector, has the mean intensity of the data less the background, for every oversampling.", "quantifier": "all detector bases, distances, oversamplings, data, masks and backgrounds", "why_tests_cant": "must hold for all geometries and data", "anchors": ["src/cdtools/models/fancy_ptycho.py:from_dataset", "src/cdtools/tools/initializers/initializers.py:SHARP_style_near_field_probe"]}
{"id": "C94", "title": "devices and data types of a dataset", "statement": "Items of a dataset arrive on the device and in the data type asked for: after any history of dataset.to and dataset.get_as, an access gives index, translation and pattern on the device of the last get_as; moving data between devices changes no value and no order; data types are converted only on request and never for the mask (boolean) or the index; a moved dataset or model carries all of its data along, and Multislice2DPtycho.to behaves as torch.nn.Module.to.", "quantifier": "all datasets, histories of to and get_as, and indices", "why_tests_cant": "must hold for every history of calls", "anchors": ["src/cdtools/datasets/base.py:CDataset.to", "src/cdtools/datasets/base.py:CDataset.get_as", "src/cdtools/datasets/base.py:CDataset.__getitem__", "src/cdtools/datasets/ptycho_2d_dataset.py:Ptycho2DDataset.to", "src/cdtools/models/multislice_2d_ptycho.py:Multislice2DPtycho.to"]}
{"id": "C95", "title": "hyperparameters that change between calls", "statement": "optimize can be called repeatedly on one Adam or LBFGS reconstructor with any hyperparameters (amsgrad, history_size, learning rate, line search): every call works and uses the values given to it, with the documented defaults for those left out.", "quantifier": "all sequences of calls, hyperparameters and numbers of steps", "why_tests_cant": "must hold for every sequence of calls", "anchors": ["src/cdtools/reconstructors/adam.py:AdamReconstructor.adjust_optimizer", "src/cdtools/reconstructors/adam.py:AdamReconstructor.optimize", "src/cdtools/reconstructors/lbfgs.py:LBFGSReconstructor.adjust_optimizer", "src/cdtools/reconstructors/lbfgs.py:LBFGSReconstructor.optimize"]}
{"id": "C96", "title": "detector geometry and surface normal of a model", "statement": "A model returns the detector geometry it was given, whatever was given before (distance and corner only if they are given), so that a simulated dataset or a copy describes the same experiment; the surface normal used by from_dataset is the beam direction in transmission, the unit normal of the specular reflection to the detector in reflection, else that of the dataset, and other modes are refused.", "quantifier": "all geometries, sequences of geometries, orientations and modes", "why_tests_cant": "must hold for every geometry and history", "anchors": ["src/cdtools/models/base.py:CDIModel.store_detector_geometry", "src/cdtools/models/base.py:CDIModel.get_detector_geometry", "src/cdtools/models/fancy_ptycho.py:FancyPtycho.from_dataset", "src/cdtools/models/multislice_ptycho.py:MultislicePtycho.from_dataset"]}
{"id": "C97", "title": "saved figures", "statement": "save_figures writes every open inspection figure to its own file, named by the title of its plot with the prefix and extension given, and touches no other file.", "quantifier": "all plot lists, titles, prefixes, extensions and directory contents", "why_tests_cant": "must hold for every list of figures", "anchors": ["src/cdtools/models/base.py:CDIModel.save_figures"]}
{"id": "C98", "title": "inspecting a dataset", "statement": "dataset.inspect shows for every exposure of a scan of any length the intensity recorded in its valid pixels, and images whose valid pixels show the data (or log10 of data plus offset, so that brighter pixels look brighter) and whose masked pixels show as zero; this works with or without a mask.", "quantifier": "all numbers of exposures, patterns, masks and offsets", "why_tests_cant": "all sizes, including those that are no multiple of the chunk size", "anchors": ["src/cdtools/datasets/ptycho_2d_dataset.py:Ptycho2DDataset.inspect"]}
{"id": "C99", "title": "spectral starting guess", "statement": "RPI_spectral_init returns orthogonal eigenmodes with real eigenvalues that are not negative, weighted in the ratio of these, does not depend on the content of masked pixels, and gives guesses whose amplitude follows the data: c times the light gives a guess multiplied by the square root of c.", "quantifier": "all probes, object sizes, patterns, backgrounds, masks and factors", "why_tests_cant": "operator identities over all sizes", "anchors": ["src/cdtools/tools/initializers/initializers.py:RPI_spectral_init"]}
{"id": "C100", "title": "gradient steps of a ptychography model", "statement": "With FancyPtycho, any of its losses and any mask, one evaluation of a minibatch returns the loss of the minibatch and leaves the exact gradient of it with respect to all parameters (probe, object, background, weights, translation offsets, probe Fourier shifts), whatever the calculation width, as long as no trained scan position is exactly on a pixel boundary and no pixel is exactly at the saturation level; and a small enough step against the gradient lowers the loss.", "quantifier": "all model options, sizes, parameters, minibatches, losses, masks and calculation widths", "why_tests_cant": "differentiability at every point of a continuum of parameters", "anchors": ["src/cdtools/models/fancy_ptycho.py:FancyPtycho.interaction", "src/cdtools/models/fancy_ptycho.py:FancyPtycho.measurement", "src/cdtools/reconstructors/base.py:Reconstructor.run_epoch", "src/cdtools/tools/losses/losses.py:amplitude_mse"]}
{"id": "C101", "title": "what an exposure depends on", "statement": "The simulation of an exposure depends only on the probe inside its support, on the object inside the window at its scan position, on its own weights, offset and Fourier shift, and a background pixel acts on that pixel only. So a minibatch leaves no gradient on anything else: not outside the support, not outside the scanned windows, not on parameters of other exposures, not on the background under masked pixels.", "quantifier": "all models, parameters, exposures and minibatches", "why_tests_cant": "non-interference over all parameter values", "anchors": ["src/cdtools/models/fancy_ptycho.py:FancyPtycho.interaction", "src/cdtools/tools/interactions/interactions.py:ptycho_2D_sinc", "src/cdtools/tools/measurements/measurements.py:quadratic_background"]}
{"id": "C102", "title": "continuity in the scan position", "statement": "The intensity that ptycho_2D_sinc and far_field simulate changes continuously with the scan position, also where the position passes a pixel of the object, so that refining positions sees no jumps.", "quantifier": "all probes, objects and scan positions", "why_tests_cant": "limits over a continuum of positions", "anchors": ["src/cdtools/tools/interactions/interactions.py:ptycho_2D_sinc", "src/cdtools/models/fancy_ptycho.py:FancyPtycho.interaction"]}
{"id": "C103", "title": "simulated data can be used like measured data", "statement": "The dataset returned by sim_to_dataset holds the simulated patterns of the given exposures in order and nothing more: any model, also the simulating one, can be trained on it for any number of minibatches, and training never touches the model the data came from except through the parameters being trained.", "quantifier": "all models, exposures, calculation widths, trained models and numbers of minibatches", "why_tests_cant": "histories of any length of forward and backward passes", "anchors": ["src/cdtools/models/fancy_ptycho.py:FancyPtycho.sim_to_dataset", "src/cdtools/models/multislice_ptycho.py:MultislicePtycho.sim_to_dataset", "src/cdtools/models/bragg_2d_ptycho.py:Bragg2DPtycho.sim_to_dataset", "src/cdtools/models/multislice_2d_ptycho.py:Multislice2DPtycho.sim_to_dataset", "src/cdtools/reconstructors/base.py:Reconstructor.run_epoch"]}
{"id": "C104", "title": "gradient steps of the other models", "statement": "With SimplePtycho, RPI, MultislicePtycho and Bragg2DPtycho (any of their losses, any mask) one evaluation of a minibatch returns the data loss of the minibatch and leaves its exact gradient with respect to all parameters of the model, plus for RPI the gradient of the regularizer (once per minibatch, not in the returned loss), whatever the calculation width, as long as every exposure can be simulated, no trained scan position is exactly on a pixel boundary and no pixel is exactly at the saturation level; if an exposure cannot be simulated the step raises. For RPI the data leave no gradient on object pixels outside the support, on the imaginary part of a phase-only object, or on a weight matrix that is not trained.", "quantifier": "all model options, sizes, parameters, minibatches, losses, masks, regularization factors and calculation widths", "why_tests_cant": "differentiability at every point of a continuum of parameters", "anchors": ["src/cdtools/models/simple_ptycho.py:SimplePtycho.interaction", "src/cdtools/models/rpi.py:RPI.interaction", "src/cdtools/models/rpi.py:RPI.regularizer", "src/cdtools/models/multislice_ptycho.py:MultislicePtycho.interaction", "src/cdtools/models/bragg_2d_ptycho.py:Bragg2DPtycho.interaction", "src/cdtools/reconstructors/base.py:Reconstructor.run_epoch"]}
{"id": "C105", "title": "writing to a cxi file only adds to it", "statement": "to_cxi into an open file leaves every group, dataset and link that was in the file as it was, whether or not the dataset has all its parts; it never overwrites: a second ptychography dataset written to the same file raises. A file written by name is marked as a cxi file of version 1.6 with one entry, with patterns and translations at the places the format prescribes. Whatever file is read, translations, intensities, efficiency mask and sample metadata are in single precision, and the mask defaults to ones of the shape of a pattern.", "quantifier": "all datasets, all files and all contents", "why_tests_cant": "all file contents, including files written by other programs", "anchors": ["src/cdtools/datasets/ptycho_2d_dataset.py:Ptycho2DDataset.to_cxi", "src/cdtools/datasets/ptycho_2d_dataset.py:Ptycho2DDataset.from_cxi", "src/cdtools/datasets/base.py:CDataset.to_cxi", "src/cdtools/tools/data/data.py:create_cxi", "src/cdtools/tools/data/data.py:add_data"]}
{"id": "C106", "title": "a line search sees one objective", "statement": "The values and gradients that a line-searching optimizer (LBFGS_optimize with line_search_fn) obtains from a minibatch are those of one function of the parameters: the data loss of the minibatch without a regularization factor, the sum of data loss and regularizer with one. So along every direction of descent all small enough steps satisfy the sufficient-decrease condition.", "quantifier": "all models, minibatches, calculation widths, parameters, directions and regularization factors", "why_tests_cant": "a statement about all parameters, directions and step lengths", "anchors": ["src/cdtools/reconstructors/base.py:Reconstructor.run_epoch", "src/cdtools/reconstructors/lbfgs.py:LBFGSReconstructor.optimize"]}
{"id": "C107", "title": "Standardized sets and pairs of reconstructions are consistent", "statement": "standardize_reconstruction_set and standardize_reconstruction_pair return reconstructions that predict what the inputs predicted (up to a common movement), aligned by one shift per object and one per probe stack; the FRC, SSNR and probe errors they report are those of what they return and lie in their ranges; repeated reconstructions that differ by phases only come back equal, with FRC 1 and vanishing errors; the returned translations belong to the returned objects; and the dictionaries of the caller are not modified.", "quantifier": "all reconstructions (sizes, modes), windows, options, minimizers", "why_tests_cant": "depends on every object, probe, window and found shift; a test checks one pair of files", "anchors": ["src/cdtools/tools/analysis/analysis.py:standardize_reconstruction_set", "src/cdtools/tools/analysis/analysis.py:standardize_reconstruction_pair", "src/cdtools/tools/image_processing/image_processing.py:find_shift"]}
{"id": "C108", "title": "The plots of inspect() show what their titles say", "statement": "For every state of a model: the plots drawn in a panel fill its grid without overlap; every plot has a window of its own; the plots called real space and Fourier space show the wave that illuminates the sample and its far field, whichever of the two the model stores; object plots show the transmission of the sample (phase and modulus, or real and imaginary part of T with transmission exp(iT)), for multislice models also of all slices together; the background plot shows what the detector reads without light; weight, power and probe plots are means, percentages and root sums of squares.", "quantifier": "all models, representations (fourier_probe, exponentiate_obj, phase_only, weights), crops and pixels", "why_tests_cant": "a test looks at one model and, usually, at whether a figure appears at all", "anchors": ["src/cdtools/models/fancy_ptycho.py:plot_panel_list", "src/cdtools/models/fancy_ptycho.py:plot_list", "src/cdtools/models/multislice_ptycho.py:plot_list", "src/cdtools/models/multislice_2d_ptycho.py:plot_list", "src/cdtools/models/bragg_2d_ptycho.py:plot_list", "src/cdtools/models/rpi.py:plot_panel_list"]}
{"id": "C109", "title": "A model made by from_dataset starts from the data", "statement": "FancyPtycho.from_dataset gives, for every dataset and all options, a model that can simulate every exposure of its dataset. With a uniform initial object and without oversampling the first simulated pattern of each exposure is the mean measured pattern (masked, background subtracted) scaled by the relative intensity of the exposure, plus the background, in the far and in the near field, whatever the Fourier crop (outside of which it is dark), propagation distance, Fourier-space probe and probe Fourier shifts; further modes add the intensity of random modes at one percent of the peak. For every oversampling and every random object of modulus one the total counts agree with the mean measured counts. The initial object is a phase object with the requested range of phases; the probe support is a disc around the probe; a cropped probe covers the same area.", "quantifier": "all datasets (shapes, patterns, masks, backgrounds, intensities, geometries), options, random numbers and exposures", "why_tests_cant": "depends on every dataset and combination of options; a test builds a few models", "anchors": ["src/cdtools/models/fancy_ptycho.py:FancyPtycho.from_dataset", "src/cdtools/tools/initializers/initializers.py:SHARP_style_probe", "src/cdtools/tools/initializers/initializers.py:SHARP_style_near_field_probe", "src/cdtools/tools/initializers/initializers.py:calc_object_setup"]}
{"id": "C110", "title": "A multislice model made by from_dataset starts from the data", "statement": "MultislicePtycho.from_dataset gives, for every dataset and all options, a model that can simulate every exposure of its dataset, and whose probe, positions, geometry, background and support are those of the FancyPtycho model made with the same options. With uniform initial slices, any number of them, and if all waves propagate between the slices, the first simulated pattern of each exposure is the mean measured pattern (masked, background subtracted) scaled by the relative intensity of the exposure, plus the background, dark outside the Fourier crop of the probe and of the propagator; further modes add the intensity of random modes at one percent of the peak. With random phases in the slices the total counts stay the same.", "quantifier": "all datasets (shapes, patterns, masks, backgrounds, intensities, geometries), numbers of slices, options, random numbers and exposures", "why_tests_cant": "depends on every dataset, number of slices and combination of options; a test builds a few models", "anchors": ["src/cdtools/models/multislice_ptycho.py:MultislicePtycho.from_dataset", "src/cdtools/models/multislice_ptycho.py:MultislicePtycho.interaction", "src/cdtools/tools/initializers/initializers.py:SHARP_style_probe", "src/cdtools/tools/propagators/propagators.py:generate_angular_spectrum_propagator"]}
{"id": "C111", "title": "A tilted-sample model made by from_dataset starts from the data", "statement": "Bragg2DPtycho.from_dataset gives, for every dataset with at least one exposure and all options, a model that can simulate every exposure of its dataset and has an exposure of median distance in focus. Without tilt correction, with a uniform initial object and without oversampling, the first simulated pattern of each exposure is the mean measured pattern (masked, background subtracted) scaled by the relative intensity of the exposure, plus the background, at every tilt of the sample and propagation of the probe, dark outside the Fourier crop (which may be given for either axis); further modes add the intensity of random modes at one percent of the peak. For every oversampling and random initial phases the total counts are those of the mean pattern.", "quantifier": "all datasets (shapes, patterns, masks, backgrounds, intensities, geometries), surface normals, options, random numbers and exposures", "why_tests_cant": "depends on every dataset, tilt and combination of options; a test builds a few models", "anchors": ["src/cdtools/models/bragg_2d_ptycho.py:Bragg2DPtycho.from_dataset", "src/cdtools/models/bragg_2d_ptycho.py:Bragg2DPtycho.interaction", "src/cdtools/tools/initializers/initializers.py:SHARP_style_probe"]}
{"id": "C112", "title": "Padded and downsampled datasets describe the same experiment", "statement": "A FancyPtycho model made from a downsampled dataset has the same object pixels, surface normal and pixel positions of all exposures as one made from the dataset itself when the factor divides the shape (in general its pixels grow by the fraction of the detector lost), an object smaller by exactly the difference of the exit waves, and, without masked pixels, an illumination of the same intensity. One made from a padded dataset has pixels refined by the ratio of the shapes, the same normal and, for padding with zeros, an illumination of the same intensity. Downsampling keeps the direct beam on the central pixel, and padding does for equal numbers of rows before and after. The location of every recorded pixel on the detector does not change.", "quantifier": "all datasets, factors, paddings, options and exposures", "why_tests_cant": "depends on every shape, factor and geometry; a test preprocesses one dataset", "anchors": ["src/cdtools/datasets/ptycho_2d_dataset.py:Ptycho2DDataset.pad", "src/cdtools/datasets/ptycho_2d_dataset.py:Ptycho2DDataset.downsample", "src/cdtools/models/fancy_ptycho.py:FancyPtycho.from_dataset", "src/cdtools/tools/initializers/initializers.py:exit_wave_geometry"]}
{"id": "C113", "title": "Small changes of a model change its simulations and the loss little", "statement": "Simulating an exposure with a FancyPtycho, MultislicePtycho (transmissions multiplied over the slices, changes added), Bragg2DPtycho (without tilt correction), RPI or SimplePtycho model whose probe, object or background has changed gives amplitudes (roots of intensities) that differ, in the root sum of squares over the detector, by at most the size of the change: probe_norm times the largest transmission times the weights of the exposure times the root of the power of the change of the probe modes, over the oversampling; the largest change of the transmission (at most the largest change of the object for plain and phase-only objects and for exponentiated ones without gain) times the illumination; the change of the background at each pixel. Saturation, a quantum efficiency of at most one and subpixel positions never enlarge it, in the near and in the far field. The root of the amplitude loss of any minibatch changes by at most the root of the sum of the squared changes, whatever the data and the mask.", "quantifier": "all models, changes of probe, object and background, positions, exposures, data, masks and minibatches", "why_tests_cant": "a bound over all changes and positions; a test perturbs one model in one direction", "anchors": ["src/cdtools/models/fancy_ptycho.py:FancyPtycho.interaction", "src/cdtools/models/fancy_ptycho.py:FancyPtycho.measurement", "src/cdtools/models/multislice_ptycho.py:MultislicePtycho.interaction", "src/cdtools/models/bragg_2d_ptycho.py:Bragg2DPtycho.interaction", "src/cdtools/tools/interactions/interactions.py:ptycho_2D_sinc", "src/cdtools/tools/measurements/measurements.py:quadratic_background", "src/cdtools/tools/losses/losses.py:amplitude_mse"]}
{"id": "C114", "title": "Every model learns only from what its exposures illuminate", "statement": "Simulating an exposure with MultislicePtycho, Bragg2DPtycho or SimplePtycho depends on the object (every slice) inside the window at the position of the exposure only, on the probe inside its support, on the weights and the translation offset of that exposure and not of any other, and each pixel of the background acts on that detector pixel alone. A minibatch therefore leaves no gradient on object pixels outside the windows of its exposures, on weights and offsets of other exposures, or on background pixels that its mask excludes, for every loss and mask.", "quantifier": "all models of the three classes, parameters, exposures, minibatches, losses and masks", "why_tests_cant": "a statement about every pair of models that agree on the visible part; a test compares one", "anchors": ["src/cdtools/models/multislice_ptycho.py:MultislicePtycho.interaction", "src/cdtools/models/bragg_2d_ptycho.py:Bragg2DPtycho.interaction", "src/cdtools/models/simple_ptycho.py:SimplePtycho.interaction", "src/cdtools/tools/interactions/interactions.py:ptycho_2D_sinc", "src/cdtools/reconstructors/base.py:Reconstructor.run_epoch"]}
{"id": "C115", "title": "A batch of exposures is simulated as its members are", "statement": "FancyPtycho.forward called with a list of exposures (indices and translations) returns an array with one pattern for every exposure, in order, and each one is the pattern of that exposure alone, whatever else is in the batch and however often an exposure is repeated: with stable or per-exposure weights or none, with and without phase ramps, oversampling, quantum efficiency and saturation, in the near and the far field. Called with one index and one translation it returns the pattern of that exposure without an additional axis, and an exposure for which the object window does not have the shape of the probe is an error.", "quantifier": "all FancyPtycho models, weights, options, batches of any length and single exposures", "why_tests_cant": "broadcasting errors show only for particular combinations of batch, mode and image shapes; a test fixes one combination", "anchors": ["src/cdtools/models/fancy_ptycho.py:FancyPtycho.interaction", "src/cdtools/models/fancy_ptycho.py:FancyPtycho.measurement", "src/cdtools/tools/interactions/interactions.py:ptycho_2D_sinc", "src/cdtools/tools/measurements/measurements.py:quadratic_background"]}
{"id": "C116", "title": "Batches of the other models are simulated as their members are", "statement": "MultislicePtycho.forward, Bragg2DPtycho.forward and SimplePtycho.forward called with a list of exposures (indices and translations) return an array with one pattern for every exposure, in order, each one the pattern of that exposure alone, whatever else is in the batch and however often an exposure is repeated, for any number of modes and slices, any kind of weights, every distance from the focus and with or without tilt correction. Called with the index and translation of one exposure, they return its pattern without the batch axis.", "quantifier": "all models of the three classes, weights, options, batches of any length and single exposures", "why_tests_cant": "broadcasting errors show only for particular combinations of batch, mode, slice and image shapes; a test fixes one combination", "anchors": ["src/cdtools/models/multislice_ptycho.py:MultislicePtycho.interaction", "src/cdtools/models/multislice_ptycho.py:MultislicePtycho.measurement", "src/cdtools/models/bragg_2d_ptycho.py:Bragg2DPtycho.interaction", "src/cdtools/models/simple_ptycho.py:SimplePtycho.interaction", "src/cdtools/tools/interactions/interactions.py:ptycho_2D_sinc", "src/cdtools/tools/interactions/interactions.py:ptycho_2D_round", "src/cdtools/tools/interactions/interactions.py:project_translations_to_sample"]}
{"id": "C117", "title": "A step of a Multislice2DPtycho reconstruction has the exact gradient", "statement": "For a Multislice2DPtycho model with weights, one evaluation of a minibatch returns the loss of all its exposures and the exact derivative of it with respect to all parameters together (probe, object slices or the one image used for all of them, background, weights, translation offsets), for every chunk size, number of slices, loss and mask, with and without aliasing prevention and subpixel shifts, wherever the trained positions are not exactly where another window of the object begins and no pixel is exactly saturated. An exposure that cannot be simulated in the shape of the data is an error. With subpixel=False the derivative with respect to the translation offsets vanishes, so they are never refined.", "quantifier": "all models, parameters, minibatches, chunk sizes, losses and masks", "why_tests_cant": "a derivative in all directions at every point; a test compares finite differences at one", "anchors": ["src/cdtools/models/multislice_2d_ptycho.py:Multislice2DPtycho.__init__", "src/cdtools/models/multislice_2d_ptycho.py:Multislice2DPtycho.interaction", "src/cdtools/models/multislice_2d_ptycho.py:Multislice2DPtycho.measurement", "src/cdtools/tools/interactions/interactions.py:ptycho_2D_round", "src/cdtools/reconstructors/base.py:Reconstructor.run_epoch"]}
{"id": "C118", "title": "Losses of whole arrays are those of the exposures", "statement": "amplitude_mse, intensity_mse and poisson_nll of an array of measured patterns and an array of simulated patterns, with a mask of the shape of the detector or without one, are the sums over all exposures of the losses of their selected pixels (the means divide by the number of selected pixels of all exposures), and the normalizers count these pixels. One evaluation of a minibatch, its exposures simulated in chunks of any size as arrays and compared with the data as arrays, therefore returns the loss of the exposures simulated one by one, for FancyPtycho, MultislicePtycho, Bragg2DPtycho and SimplePtycho. Simulated patterns of another shape than the data are an error.", "quantifier": "all arrays of patterns, masks, losses, minibatches and chunk sizes", "why_tests_cant": "broadcasting silently compares the wrong pixels for particular shapes only; a test fixes the shapes", "anchors": ["src/cdtools/tools/losses/losses.py:amplitude_mse", "src/cdtools/tools/losses/losses.py:intensity_mse", "src/cdtools/tools/losses/losses.py:poisson_nll", "src/cdtools/tools/losses/losses.py:AmplitudeMSENormalizer", "src/cdtools/tools/losses/losses.py:SimplePoissonNLLNormalizer", "src/cdtools/reconstructors/base.py:Reconstructor.run_epoch"]}
{"id": "C119", "title": "A step of Adam or SGD moves what it should, goes downhill and stays bounded", "statement": "A coordinate that no minibatch loss depends on (an object pixel no exposure illuminates) keeps its value through any number of steps of Adam, and of SGD without weight decay; a parameter with learning rate factor 0 never moves. The first step of either optimizer lowers the loss of its minibatch for every sufficiently small learning rate, unless the gradient vanishes in all trained parameters. No step of Adam moves a coordinate by more than its learning rate times a constant of the betas (1 in the first step), however large the gradients. Scaling the loss does not change an Adam reconstruction (up to eps) and scales the learning rates of SGD. With weight decay SGD shrinks unseen coordinates by a fixed factor per step.", "quantifier": "all losses on any number of real parameters, all hyperparameters (betas, amsgrad, momentum, dampening, Nesterov, learning rate factors) changing from step to step, all numbers of steps, all starting points", "why_tests_cant": "Tests run a few epochs with the defaults and look at the final loss; statements about every coordinate, every loss and every number of steps need a proof.", "anchors": ["src/cdtools/reconstructors/adam.py: AdamReconstructor.adjust_optimizer, AdamReconstructor.optimize", "src/cdtools/reconstructors/sgd.py: SGDReconstructor.adjust_optimizer, SGDReconstructor.optimize", "src/cdtools/reconstructors/base.py: Reconstructor.run_epoch"]}
{"id": "C120", "title": "A FancyPtycho reconstruction changes only what its data can see", "statement": "Running any sequence of minibatches with Adam, or with SGD without weight decay, leaves unchanged: the probe outside its support; every object pixel that lies in no window of an exposure at the time it is simulated (with fixed positions: in no window at the start); the background under masked pixels; and the weights, translation offsets and probe Fourier shifts of exposures that are in no minibatch. A parameter whose learning rate factor is 0 has its old value afterwards. The first minibatch lowers its own loss for every sufficiently small learning rate.", "quantifier": "all models, losses, masks, sequences of minibatches of any exposures, hyperparameters changing from step to step, all initial parameters", "why_tests_cant": "A test can compare a few pixels after a few epochs; that no step in any run moves an unseen value needs an invariant over runs together with the locality of the simulation.", "anchors": ["src/cdtools/models/fancy_ptycho.py: FancyPtycho.interaction, FancyPtycho.forward_propagator, FancyPtycho.measurement", "src/cdtools/reconstructors/adam.py: AdamReconstructor", "src/cdtools/reconstructors/sgd.py: SGDReconstructor", "src/cdtools/reconstructors/base.py: Reconstructor.run_epoch"]}
{"id": "C121", "title": "A reconstruction that starts at the truth stays there", "statement": "If the parameters of a FancyPtycho model explain all data they are trained on (the simulation equals the data on the unmasked pixels), then training with the amplitude loss (positive intensities) or the intensity loss moves no parameter, in any number of minibatches of Adam or of SGD without weight decay, whatever the hyperparameters.", "quantifier": "all models, masks, parameters, minibatches, numbers of steps, hyperparameters changing from step to step", "why_tests_cant": "Floating point tests see small movements and cannot tell rounding from drift; the statement is about every parameter and every number of steps.", "anchors": ["src/cdtools/tools/losses/losses.py: amplitude_mse, intensity_mse", "src/cdtools/reconstructors/adam.py: AdamReconstructor", "src/cdtools/reconstructors/sgd.py: SGDReconstructor", "src/cdtools/models/fancy_ptycho.py: FancyPtycho"]}
{"id": "C122", "title": "The unit of length does not matter", "statement": "If all lengths of a ptychography dataset (wavelength, detector distance, detector basis, translations) and the propagation distance are given in another unit, FancyPtycho.from_dataset gives the same model: the same probe, object, weights, background, surface normal and corner, with the object and detector bases in the new unit. All simulated patterns are the same, for all values of the parameters, refined positions come out in the new unit, and a reconstruction gives the same parameters.", "quantifier": "all datasets, options, units (positive factors), near and far field, parameter values, optimizers and sequences of minibatches", "why_tests_cant": "A length that is compared with an absolute number, or scaled twice, shows only for some geometry and option; tests use one dataset in metres.", "anchors": ["src/cdtools/models/fancy_ptycho.py: FancyPtycho.from_dataset, FancyPtycho.interaction, FancyPtycho.corrected_translations", "src/cdtools/tools/initializers/initializers.py: exit_wave_geometry, SHARP_style_probe, SHARP_style_near_field_probe", "src/cdtools/tools/interactions/interactions.py: translations_to_pixel, pixel_to_translations", "src/cdtools/tools/propagators/propagators.py: generate_generalized_angular_spectrum_propagator, generate_angular_spectrum_propagator"]}
{"id": "C123", "title": "The azimuth of the laboratory frame does not matter", "statement": "If a ptychography experiment is written in a frame turned about the beam (detector basis, translations and sample orientation turned together by any angle), FancyPtycho.from_dataset gives the same model: the same probe, object, weights, background, propagator and corner; only the bases and the surface normal turn. All simulated patterns are the same, for all values of the parameters, refined positions come out in the turned frame, and a reconstruction gives the same parameters.", "quantifier": "all datasets, options and scattering modes, angles, near and far field, parameter values, optimizers and sequences of minibatches", "why_tests_cant": "A mixed up axis, a cross product in the wrong order or a wrong sign in the projection along the surface normal can cancel for a detector aligned with the axes, which is what tests use.", "anchors": ["src/cdtools/models/fancy_ptycho.py: FancyPtycho.from_dataset, FancyPtycho.interaction, FancyPtycho.corrected_translations", "src/cdtools/tools/initializers/initializers.py: exit_wave_geometry", "src/cdtools/tools/interactions/interactions.py: translations_to_pixel, pixel_to_translations", "src/cdtools/tools/propagators/propagators.py: generate_generalized_angular_spectrum_propagator"]}
{"id": "C124", "title": "Unit and azimuth of the frame do not matter to MultislicePtycho and Bragg2DPtycho", "statement": "If all lengths of a dataset and of the options (wavelength, distance, detector basis, translations, propagation distance, distance between slices) are given in another unit, MultislicePtycho.from_dataset and Bragg2DPtycho.from_dataset give the same model with its bases in the new unit, all simulations are the same and refined positions come out in the new unit. If the experiment is written in a frame turned about the beam (detector basis, translations, sample orientation and surface normal together), the models are the same with turned bases and normals, all simulations are the same, with tilt correction or without, and refined positions come out in the turned frame.", "quantifier": "all datasets, options, scattering modes, surface normals, units (positive factors), angles, parameter values and exposures", "why_tests_cant": "A mixed up component of a basis can cancel for a detector aligned with the axes, which is what tests use.", "anchors": ["src/cdtools/models/multislice_ptycho.py: MultislicePtycho.from_dataset, MultislicePtycho.interaction, MultislicePtycho.corrected_translations", "src/cdtools/models/bragg_2d_ptycho.py: Bragg2DPtycho.from_dataset, Bragg2DPtycho.interaction, Bragg2DPtycho.corrected_translations", "src/cdtools/tools/propagators/propagators.py: generate_angular_spectrum_propagator, generate_generalized_angular_spectrum_propagator, generate_high_NA_k_intensity_map", "src/cdtools/tools/interactions/interactions.py: project_translations_to_sample"]}
{"id": "C125", "title": "The order of the exposures does not matter", "statement": "If the exposures of a dataset are stored in another order (patterns, translations, recorded intensities together), FancyPtycho.from_dataset gives the same model: the same probe, object, background, propagator, surface normal and corner, and weights, offsets and Fourier shifts that belong to the same exposures as before. Every exposure is simulated as before, and refined positions are those of their exposures. A reconstruction with Adam or SGD on the same minibatches, with the new numbers of their exposures, gives the same parameters, whatever the order of the exposures inside the minibatches; with all exposures in one minibatch the order of the dataset does not matter at all.", "quantifier": "all datasets, options, permutations, models, losses, masks, sequences of minibatches and hyperparameters, all numbers of steps", "why_tests_cant": "An index that is applied to one array and not to another shows only for particular orders; tests use one scan order.", "anchors": ["src/cdtools/models/fancy_ptycho.py: FancyPtycho.from_dataset, FancyPtycho.interaction, FancyPtycho.corrected_translations", "src/cdtools/tools/initializers/initializers.py: calc_object_setup, SHARP_style_probe", "src/cdtools/reconstructors/base.py: Reconstructor.run_epoch", "src/cdtools/reconstructors/adam.py: AdamReconstructor", "src/cdtools/reconstructors/sgd.py: SGDReconstructor"]}
{"id": "C126", "title": "The order of the exposures does not matter to the other models", "statement": "If the exposures of a dataset are stored in another order, Bragg2DPtycho.from_dataset and MultislicePtycho.from_dataset give the same model (probe, object or slices, background, bases, corner, median propagation distance), with weights and offsets that belong to the same exposures as before; every exposure is simulated as before and refined positions are those of their exposures.", "quantifier": "all datasets, options, permutations and exposures", "why_tests_cant": "An index that is applied to one array and not to another shows only for particular orders; tests use one scan order.", "anchors": ["src/cdtools/models/bragg_2d_ptycho.py: Bragg2DPtycho.from_dataset, Bragg2DPtycho.interaction", "src/cdtools/models/multislice_ptycho.py: MultislicePtycho.from_dataset, MultislicePtycho.interaction"]}
{"id": "C127", "title": "The origin of the scan does not matter", "statement": "If all translations of a dataset are measured from another point (the same vector, with any component along the beam, added to all of them), FancyPtycho.from_dataset, MultislicePtycho.from_dataset and Bragg2DPtycho.from_dataset give the same model: the same probe, object, weights, background and bases; only the corner of the object, and for Bragg2DPtycho the position of the focus, are given from the new point. All simulations are the same, for all values of the parameters, and for FancyPtycho refined positions move with the origin and a reconstruction gives the same parameters. The one exception is simulate_probe_translation, where the phase ramp of an exposure is that of its translation from the origin.", "quantifier": "all datasets, options, origins, parameter values, optimizers and sequences of minibatches", "why_tests_cant": "An origin that is subtracted from one quantity and not from another shows only for scans that do not start at zero; tests use scans around the origin.", "anchors": ["src/cdtools/models/fancy_ptycho.py: FancyPtycho.from_dataset, FancyPtycho.interaction, FancyPtycho.corrected_translations", "src/cdtools/models/multislice_ptycho.py: MultislicePtycho.from_dataset, MultislicePtycho.interaction", "src/cdtools/models/bragg_2d_ptycho.py: Bragg2DPtycho.from_dataset, Bragg2DPtycho.interaction", "src/cdtools/tools/initializers/initializers.py: calc_object_setup", "src/cdtools/tools/interactions/interactions.py: translations_to_pixel, project_translations_to_sample"]}
{"id": "C128", "title": "A larger object array changes nothing", "statement": "FancyPtycho.from_dataset, MultislicePtycho.from_dataset and Bragg2DPtycho.from_dataset with a larger obj_padding give the same model with more pixels around the object (or around every slice) and the corner of the object moved outwards by as many pixels: same probe, weights, background and bases. For all values of the parameters, and whatever the new pixels hold, an exposure whose window starts inside the object is simulated as before, whole pixels of the position having no other effect than to select the window. The exposures of the dataset start inside the object of a new model, so that all of them are simulated as before.", "quantifier": "all datasets, options, paddings, contents of the new pixels, parameter values and exposures", "why_tests_cant": "An off-by-one of the window that grows with the padding, or a padding counted once and not twice, shows only when two paddings are compared; tests use one.", "anchors": ["src/cdtools/models/fancy_ptycho.py: FancyPtycho.from_dataset, FancyPtycho.interaction", "src/cdtools/models/multislice_ptycho.py: MultislicePtycho.from_dataset, MultislicePtycho.interaction", "src/cdtools/models/bragg_2d_ptycho.py: Bragg2DPtycho.from_dataset, Bragg2DPtycho.interaction", "src/cdtools/tools/initializers/initializers.py: calc_object_setup", "src/cdtools/tools/interactions/interactions.py: ptycho_2D_sinc"]}
{"id": "C129", "title": "Reconstructions of the other models change only what their data can see, and stay at the truth", "statement": "Any number of minibatches of Adam, or of SGD without weight decay, on MultislicePtycho or Bragg2DPtycho, with any loss, mask and hyperparameters, that runs without an exception leaves unchanged: the probe outside its support, every pixel of the object (of every slice) that no window of a simulated exposure reached, the background under masked pixels, and weights and offsets of exposures that were not used. For SimplePtycho the object pixels that keep their value are those outside the windows of the exposures used, whatever happens in the run. For any model, a coordinate of the parameters on which no simulated unmasked pixel depends keeps its value, a parameter with the learning rate factor 0 keeps its value, and with the amplitude or the intensity loss a reconstruction that starts at parameters which explain all its data stays there (MultislicePtycho, Bragg2DPtycho, SimplePtycho, RPI without a regularizer).", "quantifier": "all models, parameter values, sequences of minibatches, masks and hyperparameters, all numbers of steps", "why_tests_cant": "A leak of the gradient, or of optimizer memory, into entries without data is small and appears after many steps; tests look at the loss.", "anchors": ["src/cdtools/reconstructors/base.py: Reconstructor.run_epoch", "src/cdtools/reconstructors/adam.py: AdamReconstructor", "src/cdtools/reconstructors/sgd.py: SGDReconstructor", "src/cdtools/models/multislice_ptycho.py: MultislicePtycho.interaction", "src/cdtools/models/bragg_2d_ptycho.py: Bragg2DPtycho.interaction", "src/cdtools/models/simple_ptycho.py: SimplePtycho.interaction", "src/cdtools/models/rpi.py: RPI.interaction"]}
{"id": "C130", "title": "Reconstructions with MultislicePtycho and Bragg2DPtycho do not depend on unit, frame, origin and numbering", "statement": "Any number of minibatches of Adam or SGD on MultislicePtycho or Bragg2DPtycho, with any loss, mask and hyperparameters, gives the same parameters (or fails in both cases) when all lengths are in another unit, when the laboratory frame is turned about the beam, when all translations are measured from another origin (for MultislicePtycho without simulate_probe_translation), and when the exposures are numbered in another order, in which case the weights and offsets are those of the exposures in the new order.", "quantifier": "all models, parameter values, units, angles, origins, permutations, sequences of minibatches, masks and hyperparameters, all numbers of steps", "why_tests_cant": "A length or an index that enters one quantity and not another shows only when a run is repeated in another description; tests use one.", "anchors": ["src/cdtools/reconstructors/base.py: Reconstructor.run_epoch", "src/cdtools/reconstructors/adam.py: AdamReconstructor", "src/cdtools/reconstructors/sgd.py: SGDReconstructor", "src/cdtools/models/multislice_ptycho.py: MultislicePtycho.interaction", "src/cdtools/models/bragg_2d_ptycho.py: Bragg2DPtycho.interaction"]}
{"id": "C131", "title": "SimplePtycho does not depend on unit, frame, origin and order of the exposures", "statement": "SimplePtycho.from_dataset gives the same model when all lengths of the dataset are in another unit (with the basis in that unit), when the laboratory frame is turned about the beam (with a turned basis), when all translations are measured from another origin (with the corner of the object moved), and when the exposures are stored in another order. For any values of probe and object all predictions are the same, and any number of minibatches of Adam or SGD gives the same parameters or fails in both cases.", "quantifier": "all datasets with at least one exposure, units, angles, origins, permutations, parameter values, sequences of minibatches and hyperparameters", "why_tests_cant": "A length that enters one quantity and not another shows only when a dataset is written in another description; tests use one.", "anchors": ["src/cdtools/models/simple_ptycho.py: SimplePtycho.from_dataset, SimplePtycho.interaction", "src/cdtools/tools/initializers/initializers.py: exit_wave_geometry, calc_object_setup, SHARP_style_probe", "src/cdtools/tools/interactions/interactions.py: translations_to_pixel", "src/cdtools/reconstructors/base.py: Reconstructor.run_epoch"]}
{"id": "C132", "title": "The probe modes are interchangeable", "statement": "With the incoherent probe modes in another order (and the columns of the weight matrices with them) FancyPtycho, MultislicePtycho and Bragg2DPtycho simulate the same patterns, with weights per exposure or weight matrices, in real or Fourier space, with tilt correction or without. Any number of minibatches of Adam or SGD, started from the modes in another order, gives the same parameters with the modes in that order, or fails in both cases.", "quantifier": "all models, parameter values, permutations of the modes, exposures, sequences of minibatches, masks, losses and hyperparameters", "why_tests_cant": "A mode that is treated unlike the others (a missing sum, a wrong index of the weight matrices) shows only when the modes are exchanged; tests use one order.", "anchors": ["src/cdtools/models/fancy_ptycho.py: FancyPtycho.interaction, FancyPtycho.measurement", "src/cdtools/models/multislice_ptycho.py: MultislicePtycho.interaction", "src/cdtools/models/bragg_2d_ptycho.py: Bragg2DPtycho.interaction", "src/cdtools/tools/measurements/measurements.py: incoherent_sum, quadratic_background", "src/cdtools/reconstructors/base.py: Reconstructor.run_epoch"]}
{"id": "C133", "title": "The two axes of the detector are treated alike", "statement": "Exchanging the two axes of a FancyPtycho model (of the detector, probe, support, object, background, quantum efficiency and propagator, the basis vectors, and the components of the corner, of the offsets and of the Fourier shifts) exchanges the axes of every simulated pattern, or fails in both cases, and changes no refined position. The same holds for the patterns of MultislicePtycho, with the axes of every slice exchanged, and of SimplePtycho. Any number of minibatches of Adam or SGD on any of these models on patterns and mask with their axes exchanged gives the parameters with their axes exchanged, or fails in both cases. The sample, its normal and the translations stay as they are; probe and object windows of any two sizes, with binning, support, tilt correction and near or far field.", "quantifier": "all models, parameter values, exposures, translations, sizes of both axes, sequences of minibatches, masks, losses and hyperparameters", "why_tests_cant": "Code that uses the size, the basis vector or the shift of one axis for the other is right on square data with square pixels, which is what tests use.", "anchors": ["src/cdtools/reconstructors/base.py: Reconstructor.run_epoch", "src/cdtools/models/fancy_ptycho.py: FancyPtycho.interaction, FancyPtycho.measurement, FancyPtycho.corrected_translations", "src/cdtools/models/multislice_ptycho.py: MultislicePtycho.interaction", "src/cdtools/models/simple_ptycho.py: SimplePtycho.interaction", "src/cdtools/tools/interactions/interactions.py: translations_to_pixel, pixel_to_translations, ptycho_2D_sinc", "src/cdtools/tools/propagators/propagators.py: far_field, near_field", "src/cdtools/tools/measurements/measurements.py: quadratic_background"]}
{"id": "C134", "title": "from_dataset treats the two axes of the detector alike", "statement": "A dataset with the axes of its detector exchanged (patterns, mask, background, quantum efficiency and the basis vectors; the same sample and translations) gives the model with its axes exchanged, for FancyPtycho and SimplePtycho, with any oversampling, Fourier crop, probe support, padding and number of modes, in the near and the far field; the basis of the exit wave and the probe guess have their axes exchanged. (In reflection this fails, because the surface normal is taken from the cross product of the basis vectors: the normals for the two orders are perpendicular.)", "quantifier": "all datasets, options, sizes of both axes, random numbers of the initialization", "why_tests_cant": "Code that uses the size or the basis vector of one axis for the other is right on square data with square pixels, which is what tests use.", "anchors": ["src/cdtools/models/fancy_ptycho.py: FancyPtycho.from_dataset, FancyPtycho.__init__", "src/cdtools/models/simple_ptycho.py: SimplePtycho.from_dataset", "src/cdtools/tools/initializers/initializers.py: exit_wave_geometry, calc_object_setup, SHARP_style_probe"]}
