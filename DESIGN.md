# Formal model of benjimaclellan/aesop — design

The deliverable is a Lean 4 (4.33.0) model of the pure / state-machine core of the
repository in `/repo` and theorems about it.  Nothing in `/repo` is run.

## Layout

| directory | content |
|---|---|
| `lean/Verif/Model/` | executable models, one file per source area, each definition cites file and lines |
| `lean/Verif/Spec/` | short specification vocabulary used in theorem statements (paths, acyclicity, sortedness …), independent of the models' helpers |
| `lean/Verif/Lemmas/` | helper lemmas |
| `lean/Verif/Props/` | the property theorems, each with a non-vacuity `example` next to it |
| `seeded/LOG.jsonl` | log of seeded-bug experiments (run with `tools/mutate.py`) |
| `AXIOMS.md` | axioms of every property theorem, as printed by Lean |
| `MANIFEST.json` | property → theorem names |

## Trusted base

* Lean 4.33.0 kernel; the axioms `propext`, `Classical.choice`, `Quot.sound`
  (checked with `#print axioms`, result per theorem in `AXIOMS.md`; no own axioms, no `sorry`, no `native_decide`/`bv_decide`).
* Mathlib definitions used in statements (`List`, `ℚ`, `ℝ`, order).
* The faithfulness of the hand translation from Python, argued by the citation on each definition.
* Library code outside `/repo`: networkx 2.5 (`MultiDiGraph.add_edge` key choice, edge
  iteration order, `remove_edge`, `contracted_nodes`, `has_path`, `topological_sort`,
  `ancestors`), numpy, scipy, `random`, `copy.deepcopy`, `uuid4`, pandas.  Their behaviour is
  modelled from their documented semantics / source as recalled; each model says what it assumes.

## General modelling decisions

* **Randomness** (`random`, `np.random`, `uuid4`) is an explicit argument; theorems quantify over all values
  the library call can return (e.g. any element of the sampled list; for `uuid4` any id not yet used).
* **Set iteration order** is an explicit argument (any permutation).
* **Floats** are modelled by `ℚ`/`ℝ` or an arbitrary linear order / ordered field; rounding, NaN and
  infinities are not modelled.  `np.isclose` comparisons are noted at each place.
* **Exceptions** are values (`Except`/`Option`), with Python's exception kind.
* **Aliasing/mutation** is modelled with an explicit heap in the parameter model (`Model/Params.lean`);
  elsewhere functions return new values and `copy.deepcopy` is the identity.
* In the graph model (`Model/Propagate`) signals are an arbitrary type and components are uninterpreted functions.  The physics of the
  components is modelled separately on vectors `Fin n → ℂ` with exact real/complex arithmetic (`Model/Signal`, `Model/Components`, …).

## What is modelled

| model | source | properties |
|---|---|---|
| `Model/Graph` | `lib/graph.py:34-71,115-164,176,285-289`, networkx 2.5 `MultiDiGraph` | C01-C10 |
| `Model/Topo` | networkx `topological_sort`, as called in `lib/graph.py` | C19 |
| `Model/Ops` | `simulator/fiber/evolution_operators/evolution_operators.py`, all four operators | C01-C10 |
| `Model/Evolver` | `simulator/fiber/evolver.py:23-391` (lookup, operator-weighted and Hessian evolvers) | C11-C16 |
| `Model/Propagate` | `lib/graph.py:182-241,285-329` | C17, C18, C20 |
| `Model/Layout` | `lib/graph.py:375-414` | C21 |
| `Model/Params` | `lib/graph.py:122-135,483-573,601-642`, `lib/base_classes.py:15-78` | C22-C24, C45, C46 |
| `Model/Hof` | `algorithms/topology_optimization.py:165-251` | C25-C27 |
| `Model/Topology` | `algorithms/topology_optimization.py` (main loop, selection, update rules) | C28-C30, C48-C51 |
| `Model/Speciation` | `algorithms/speciation.py:26-228` | C31-C34, C47 |
| `Model/Ga` | `algorithms/parameter_optimization.py:318-406` | C35, C36 |
| `Model/Adam` | `algorithms/parameter_optimization.py:260-315`, `algorithms/parameter_optimization_utils.py:244-299` | C37 |
| `Model/Optimize` | `algorithms/parameter_optimization.py:21-257` | C52 |
| `Model/Splitter` | `simulator/fiber/node_types_subclasses/multi_path.py:17-133` | C38 |
| `Model/Caches` | `simulator/fiber/assets/filter.py:11-101`, `simulator/fiber/assets/additive_noise.py:23-205` | C39, C40 |
| `Model/Save` | `lib/minimal_save.py:18-110` | C41 |
| `Model/Logger` | `algorithms/functions.py:35-112,155-183` | C42 |
| `Model/Hessian` | `simulator/fiber/assets/hessian_graph_analysis.py:8-101` | C43 |
| `Model/Distance` | `algorithms/speciation.py:268-379` | C44 |
| `Model/Signal` | `simulator/fiber/assets/propagator.py`, `simulator/fiber/assets/functions.py` | C53, C54 |
| `Model/Components` | `simulator/fiber/node_types_subclasses/single_path.py`, every `propagate` | C55-C61, C64 |
| `Model/Devices` | `simulator/fiber/assets/filter.py:44-175`, `simulator/fiber/node_types_subclasses/{inputs,outputs}.py` | C62, C63, C65 |
| `Model/Noise` | `simulator/fiber/assets/additive_noise.py:109-256` | C66 |
| `Model/Evaluators` | `simulator/fiber/evaluator_subclasses/` (scores and alignment on measured signals) | C67, C68 |
| `Model/Physics` | the components above joined to `propagate`; `multi_path.py:54-133` on whole signals, `terminals.py:41-82` | C69 |
| `Model/Copy` | `lib/graph.py:34-97` (`init_graph`, `duplicate_and_simplify_graph`, `update_graph`), `multi_path.py:35-52`, `topology_optimization.py:572-579` (`save_hof`) | C70 |
| `Model/Evaluate` | `simulator/fiber/evaluator_subclasses/` (`evaluate_graph` of every evaluator with its effects on parameters, noise switch and stored states), `lib/graph.py:125-129` | C72 |
| `Model/Closure` | `lib/graph.py:122-141` (functions as objects holding on to graph and components), `copy.deepcopy` of graphs, `topology_optimization.py:540-562` (`parameters_optimize_complete`) | C73 |
| `Model/Scaled` | `lib/graph.py:137-149` (`hess`, `scaled_hess`), `lib/hessian.py:43-80` (`lha_analysis`, `plot_eigenvectors`), `topology_optimization.py:554` | C74 |
| `Model/Tables` | the constructors in `simulator/fiber/node_types_subclasses/` (parameter tables of all component classes; units and symbols left out), `lib/graph.py:90-97`, `simulator/fiber/evolver.py:63-80` | C75 |
| `Model/Library.lean` | `simulator/fiber/assets/decorators.py`, `lib/functions.py:17-30`, `lib/base_classes.py:122-128`, `simulator/fiber/evolver.py:41`, `lib/minimal_save.py:18-26,57`, `algorithms/speciation.py:291-299`; the class statements and decorators of `simulator/fiber/node_types_subclasses/*.py`. Not modelled: `print`, failing imports, `collections.MutableMapping` (gone in Python 3.10). | C76 |
| `Model/Files` | `lib/functions.py:86-242` (`InputOutput`; not the stream handling of the log), `algorithms/topology_optimization.py:31-157` as far as files are concerned | C77 |
| `Model/Viewer` | `interactive/model.py:20-128,173-197`, `interactive/controller.py:34-40`, `lib/graph.py:328-329`; not the layout and the Bokeh widgets; `initialize_func_grad_hess` calls nothing while loading | C78 |
| `Model/Targets.lean` | constructors of the RF, filter, time-lens, pulse and noise evaluators: `evaluator_rfawg.py:16-53`, `evaluator_filter_design.py:15-22`, `evaluator_discrete_time_lens.py:15-21`, `evaluator_pulserep.py:14-36`, `evaluator_noise_suppression.py:14-21`; `scipy.signal.sawtooth`/`square` written out for widths in [0, 1] | C80 |
| `Model/Settings.lean` | `lib/base_classes.py:15-97` with list objects as references; per class which parameters `propagate`, noise and filter take from where: `inputs.py:41-44,74-77,103-117,144-147,191-194`, `outputs.py:112-150`, `single_path.py:130-190,444-517`; `copy.deepcopy` of one component. What is computed from the values is not part of it | C81 |
| `Model/Ase.lean` | `single_path.py:448-517` (`OpticalAmplifier.propagate`, `get_ASE_filter`, `_noise_factor`) | C82 |
| `Model/Tuning` | `algorithms/parameter_optimization_utils.py:42-234,332-433`, `algorithms/functions.py:18-32` (`logbook_update`), `lib/hessian.py:82-96` (keys used by `function_wrapper`) | C83 |
| `Model/Linewidth.lean` | `additive_noise.py:19-20, 270-307`: dBc/Hz to rad²/Hz, mirrored data, fit of c/f² (`curve_fit` is an argument), linewidth | C84 |
| `Model/Drawing` | `get_optical_system_edge_curves`, `get_plot_edge_data` (number of data sets), `update_graph_hessian_data`, `edge_selected_callback`, `clear_plots`, `add_sources`, `add_lines`, `button_callback`, `graph_hessian_data`, `add_lha_eigenvectors`; colours, tooltips and the rest of Bokeh are not modelled | C86 |
| `Model/Schemes` | the choice of update rule by name, the four setups, `generationOf`/`runOf` (runs with the setup made explicit), `speciate` with distances that raise (`speciateE`). Simplifications: the setup acts in generation 0 only (it is called in each, but finds the population marked); what a setup that raises leaves behind is not modelled; the markers of photoNEAT, whose construction always raises, are left out | C87 |
| `Model/Transforms` | `save_transforms`: `transform` of every edge model, `argmin` on the time axis, histories of calls | C89 |
| `Model/Plots` | `scale_units` (lib/functions.py), `compare` of the evaluators, `Graph.inspect_state`: data and labels of figures, no drawing | C90 |
| `Model/Objective` | `graph.func` (propagate, read the state, score) as a function of the parameters; automatic differentiation is taken to return derivatives where they exist | C91 |
| `Model/Reading.lean` | which parameter each component class reads where (`single_path.py`, `multi_path.py`) | C97 |
| `Model/RandomGraph` | `random_graph` of the base and of the Hessian evolver, `evolve_graph` as an effect on the caller's object, evolver.py:44-88, 113-128, 376-390 | C100 |
| `Model/Registry` | operator registries and decorators, evolver constructors and weights, `CrossoverMaker`: config/config.py:10-14, lib/decorators.py:11-49, evolver.py:35-42, 222-290, 759-783 | C101 |
| `Model/WholeRun` | a run on designs: `evolve_graph`, `assert_number_of_edges`, `parameters_optimize_complete`, the write-back of the preferential rule: topology_optimization.py:283-340, 539-564 | C103 |
| `Model/ScheduledRun` | `HessianProbabilityEvolver` in a run, the generation handed to it: topology_optimization.py:95-117, evolver.py:275-290 | C104 |
| `Model/Benchmarks` | the benchmark functions and `TestFunction`: testing/test_functions.py:9-167 | C105 |
| `Model/Resample` | `resample_all_noise`: lib/graph.py:243-261, simulator/fiber/graph.py:244-263 | C106 |
| `Model/Logging` | `Tee`, `TeeWrapper`, `init_logging`, `close_logging`, `print` and `flush` (`lib/functions.py:45-84, 126-131`); IPython branch left out | C108 |
| `Model/Farm` | `ray.put`, `.remote`, `ray.get` as used in `topology_optimization` (`algorithms/topology_optimization.py:60-64, 79, 115-120, 567-569`), by their documented behaviour; `local_mode` left out; of the failing tasks the first in the list gives the exception | C109 |
| `Model/CommandLine` | `parse_command_line_args` (`lib/functions.py:34-42`) with the behaviour of `argparse.ArgumentParser.parse_args` for four options with `nargs='?'` and no positional arguments; `--help` and errors both end the process (one result); compared with the `argparse` of Python 3.11 on 6000 random command lines, all of which agree; the use of `selection` and `evaluator` in three scripts | C110 |
| `Model/Harness` | `benchmark_evolvers` (`scripts/compare_evolvers.py:39-84`), `benchmark_elitism` (`scripts/benchmark_elitism.py:38-78`), `benchmark_selection_rules` (`scripts/benchmark_selection_rules.py:43-74`): plan, folders, sizes, logs, exceptions; what a run computes is left to the other models, seeds to C109 | C111 |
| `Model/PropObject` | `Propagator` with its setters (`simulator/fiber/assets/propagator.py:10-97`), shape of what the sources send (`inputs.py:74-78,111-114,191-200,230-232`, `lib/graph.py:305-306`); not: infinite floats, arrays as `n_samples`, `window_t`, `central_wl`, changes in place, assignments to `wl` | C112 |
| `Model/LogAnalysis` | `display_log_data` (`scripts/elitism_data_analysis.py:24-71`): folder, listing, reading, `add(fill_value=0)`, division, curves, title; not: entries that are not a number, colours, labels, the window, `save` (which is not used) | C113 |
| `Model/Condense` | condensed figure of `scripts/compare_algorithms.py:88-112`: `interp1d` (linear, `nan` outside), `t_max`, `linspace`, `nanmean`, `nanmin`, `nanmax`; not: logs without a row, the variance (not used), rounding | C114 |
| `Model/HofFigure` | `plot_hof` (`algorithms/topology_optimization.py:582-602`) and `draw` with `_arrow_center` (`lib/graph.py:416-469`): what is drawn; not: sizes, colours, limits of axes (the time axis is cut to 0..1 ns), the file | C115 |
| `Model/RandomSearch` | the search of `scripts/run_derivative_phase_terms.py:99-119`: loops, copies, evolution in place, optimisation, choice of the best; evolver and optimiser choose freely; not: their algorithms, printing | C116 |
| `Model/Triangle` | `triangle_sample` (`lib/graph.py:644-669`), `np.random.triangular` as a function of one uniform draw; not: the line printed | C117 |
| `Model/GainCurve` | `_calculate_small_signal_gain`, `display_small_signal_gain` of the amplifier (`single_path.py:549-571`); not: labels and title | C118 |
| `Model/Switches` | the switches of noise as attributes of class and objects, `update_noise_model`, `enable_noise`, `disable_noise`, `deepcopy` of a component (`additive_noise.py:30,62,116,167`, `inputs.py:115-158`, `base_classes.py:41-48`); not: adding or resampling of sources, worker processes (C109) | C119 |
| `Model/NoiseDisplay` | `display_noise_contributions` (`lib/graph.py:263-283`), `display_noisy_signal`, `display_noise`, `display_noise_sources_absolute` (`additive_noise.py:311-373`); not: line styles, labels, propagators with another number of samples | C120 |
| `Model/Tracers` | numbers in boxes, components with values that may be boxed, extraction with and without unpacking, `func`/`grad`/`hess` and `parameters_optimize_complete` as calls at a depth of tracing | C122 |
| `Model/RunSnr.lean` | `scripts/run_snr.py:53-88` without the plots | C128 |
| `Model/Repeats.lean` | `run_discrete_time_lens.py` loop of repeats; plots and files left out | C131 |

## What is not modelled

Plotting, the interactive GUI, the inside of `ray` (its documented behaviour is modelled, C109), autograd differentiation (its results are, as
derivatives, C91), floating-point rounding, the scipy/pyswarm/cma optimisers (black boxes, of which theorems assume nothing beyond what is said
there), the file system beyond the names and contents the code writes, the test folder, and the script folder apart from the statements cited in
the models.  The evolvers below line 391 of `evolver.py` are commented out in the repository (except `CrossoverMaker`).
`simulator/fiber/graph.py` is an older copy of `lib/graph.py`; where the two agree the models cite the latter.

## Per property plan

| id | plan |
|---|---|
| C01 | `Graph` = node list + edge list in networkx iteration order; the four `apply` functions; acyclic = no non-empty path from a node to itself; per-operator preservation, lifted to all histories by induction |
| C02 | invariant "every node reachable from a source node and reaches a sink node; same sources/sinks" through each operator |
| C03 | offered locations never touch terminals/protected models; induction over histories |
| C04 | edge multiset equation for AddSeries |
| C05 | every `IsTopo` order; edge multiset equation |
| C06 | `hasPath` decision procedure proved equal to the path relation; edge multiset equation through the merge map; exact characterisation of reachability afterwards (a merge can add paths) |
| C07 | pointwise frame theorem |
| C08 | counters over histories |
| C09 | `WF` invariant incl. key uniqueness (`newKey` fresh) |
| C10 | invariant for all steps but merging removals, exact degrees after a merge, hence an equivalence per step and, by induction, the only cause over histories; counterexample showing it occurs |
| C11 | matrix as list of rows over `ℚ`; sum, support, uniformity; error branch |
| C12 | flat index decoding; composition with C01 etc. |
| C13 | column sums |
| C14 | tournament over arbitrary shuffles; counting argument |
| C15 | weights schedule; monotonicity of removal's share; negative witness |
| C16 | lineage over histories |
| C17, C18 | `propagate` as a fold with `Except`; dataflow equations have a unique solution |
| C19 | exact Kahn algorithm of networkx; correctness both ways |
| C20 | global flag state machine |
| C21 | layering loop with explicit fuel = number of nodes; row = longest path |
| C22, C23 | heap of component objects; extraction/distribution |
| C24 | draws as arguments with numpy's documented range; rounding as banker's rounding |
| C25, C26, C27 | `update_hof` literally, similarity relation arbitrary |
| C28, C29, C30 | population update with draws as arguments |
| C31, C32, C33, C34 | `Speciation` as state machine over arbitrary distance |
| C35–C37 | GA and Adam with oracle arguments |
| C38 | weights over an arbitrary field |
| C39, C40 | cache state machines |
| C41 | save/load as functions; isomorphism |
| C42 | logger state machine |
| C43 | list/matrix functions over an ordered field |
| C44 | vector distance over `ℝ`; edit distance against a specification of what networkx documents (least cost of an edit, or none above the bound) |
| C45 | association-list functions |
| C46 | the objective closure as a state transformer on the parameter heap |
| C47 | `get_crossover_candidates` on the state after speciation |
| C48 | whole runs as a recursion over generations with one oracle per generation; invariant: hall of fame holds the minimum offered |
| C49 | the random rule leaves scoreless graphs known to the manager; reversal raises |
| C50, C51 | the preferential rule with a fuelled `while` loop; aliasing of the first parent's heap cells |
| C52 | `parameters_optimize` with outside optimisers as interaction trees (`Strat`): they may ask for any evaluations before answering |
| C53 | axes as affine functions of the index; comparison with the bins of the transform after `ifft_shift_` |
| C54 | discrete Fourier transform as a finite sum; orthogonality of characters proved from geometric sums of roots of unity |
| C55-C58, C64 | one lemma: a frequency mask of modulus `c` multiplies the energy by `c²` (Parseval); composition multiplies masks |
| C59 | the mask as a list, lengths and entries by integer arithmetic |
| C60 | partition of unity from the binomial theorem; in-band interval by rounding arithmetic |
| C61 | `u ≤ 1 + u^α` for `α ≥ 1`; explicit unbounded family below |
| C62 | monotonicity of the saturation formula; energy bound through the Butterworth filter of C65 |
| C63 | `arcsin ∘ sin` unwrapping: period, symmetry, identity near zero; `cosh x ≤ exp(x²/2)` for the sech width |
| C65 | `|B(jx)|² = 1 + x^(2N)` by pairing the roots of `X^(2N) + 1`; conjugate symmetry of the masks on odd grids |
| C66 | the scale factors computed exactly from the energies of signal and draw; induction over the list of sources for superposition |
| C67 | algebra of finite sums; explicit counterexamples for the misnamed and reversed scores |
| C68 | shift theorem of the DFT; the phase of the harmonic is determined modulo `2π`, i.e. the delay modulo one period, under which the target is invariant |
| C69 | every component is a filter, a sample-wise product or one of these with a gain depending on the mean power; solutions of the data-flow equations are mapped edge by edge to solutions, which are unique (C18) |
| C70 | edge lists in networkx' enumeration order are closed under evolution; rebuilding such a list edge by edge reproduces it up to keys; a relation between stores of original and copy is preserved by every propagation step |
| C71 | Cauchy–Schwarz at each splitter, Parseval at each filter; summing edge energies times node prices over all nodes telescopes to inputs and outputs; the passive bound takes products of fan-in along a topological order as prices |
| C72 | a process state (all parameters, noise switch, stored states) threaded through `evaluate_graph` of each evaluator; frame lemmas by cases, sequences by induction; scores characterised through the data-flow equations of C17; the phase shifters kept by evolution via the multiset of edge components of each step |
| C73 | a process with a heap of component objects and a list of graph objects, each with an optional closure (graph identity, component identities, locations); separation of graph objects as an invariant of all operation sequences; frame lemmas for `distribute_parameters_from_list` |
| C74 | the score as any real function of `n` real parameters, the Hessian by partial derivatives, scaling with numpy's broadcasting rule, extraction of the imprecisions as the loop of `extract_attributes_to_list_experimental`; chain rule for affine changes of each coordinate (no differentiability needed), Mathlib's symmetry of the second derivative for the quadratic form |
| C75 | the tables of all component classes transcribed, settings that scripts change as parameters; objects as a heap, `update_graph` resetting splitters, evolution as operator application on freshly constructed objects followed by update and bounds check; an invariant (every object has the lists of its class, variable parameters within bounds, no object shared) over an inductively defined life |
| C76 | Dictionaries as lists of entries; the decorators, `custom_library`, the constructor of the operators, `flatten` and the `vectorDIFF` basis as functions on them; a script is a list of commands run from the empty configuration. An invariant says what the two catalogues contain in terms of the script alone (`Offered`, `Registered`, `HasCategory`), proved by induction on the script from its end. The classes that exist, with their decorators and bases, are listed; together with C75 this discharges `LibraryFits`, with C41 it tells which designs can be reloaded, with C44 which distances exist. |
| C77 | The disk as a map from absolute paths to folders and files with bytes; `mkdir(parents, exist_ok)`, `open`, `joinpath` as POSIX and `pathlib` have them; serialisers arbitrary (they may fail midway).  Every call shown to respect the disk (`C77_kept`, induction over sessions); exact success conditions and effects of the saving calls; loading back; identifiers by their fixed width; the calls of a run write to pairwise distinct names (decimal numbers are injective) |
| C78 | Renaming nodes by an injective function commutes with `topological_sort`, `propagate` and the choice of the output (`Lemmas/Rename`); with the round trip of C41 and the simulation relation of C70 the opened design is simulated in lock step with the saved one (`relabelled_sim`); composed with C77 for the files of a run |
| C79 | `Props/Dispersion.lean` over `Model/Components.lean`, `Model/Signal.lean`: masks are compared on the occupied spectral lines only (`freqMul_congr`); a linear phase is a (fractional) shift `fracDelay`; a periodic signal occupies every m-th line (`periodic_spectrum`); `j^2 = j` modulo 2 and the Gauss sum `exp(-i pi j^2/2) = (1-i)/2 + (1+i)/2 (-1)^j` give the Talbot statements. Theorems `C79_*`. |
| C80 | `Model/Targets` writes out the constructors; shapes by the fractional part of harmonic*time; reachability by the Fourier coefficient of the first difference of the target, whose jumps fall on samples congruent modulo the period; filter bands by the fractional part; evaluation by `evaluate` of C72 and the scores of C67. |
| C81 | `Model/Settings` has list objects in a store, components with references to them, `_name` attributes, noise object and filter; induction over histories with what each event keeps of a component (`KeptPart`, `HeldPart`) and which lists are handed out. |
| C82 | Model `Model/Ase`: the remembered gain and noise factor, `get_ASE_filter`, amplifier with noise, histories of calls.  Proof: spectrum by inversion of the Fourier transform (`C66_ase`), power by Parseval and `dt·df = n/(n-1)²`, monotonicity of `u/(1+(cu)^α)` by exponent laws, histories by induction; findings by explicit parameters. `C82_mean` takes the mean over complex noise with mean square two (normally distributed numbers, `gaussian_complex`). |
| C83 | Model `Model/Tuning`: runs as state transformers that keep the state when they raise (parameters in the graph, noise draws, global switch); the two strings are arguments, so that the code as written and as meant are both covered; whether the noise can be drawn anew is part of the surroundings (C106 says it cannot).  Proof: a relation between states closed under composition for what holds in every outcome; induction over rounds, generations and batches for what holds on return; C36 and C37 for crossover and Adam. `Props/TuningMore`: batches individual by individual, convergence, logs and the number of noise draws by induction over the loops. |
| C84 | `Model/Linewidth`: data handed to `curve_fit`, the fit itself an argument of which only `LeastSquares` is assumed (a value it returns has least residuals), conversion to a linewidth. The sum of squares is a quadratic polynomial with a unique minimum. The mean spectrum is an integral over a probability space on which the drawn numbers are white noise (`Spec/Linewidth.WhiteNoise`; independent standard normal numbers are, `gaussian_white`), by C66_linewidth_spectrum. |
| C85 | The phase noise is a linear function of the numbers drawn (`phase_form`, from C66_linewidth_spectrum); products of impulse responses by orthogonality of the Fourier kernel. Mean of exp(i phase) from the characteristic function of the normal distribution over the product measure. The sum over bins is compared with the series of (1 - cos)/d² (`Lemmas/Coherence`, value from Mathlib's Bernoulli polynomial). |
| C86 | Layout and curves over the reals: scaling is affine and idempotent, the Bezier curves are brought to closed form (`C86_curve`), monotone by factoring. The window is a state machine; the invariant (nothing visible, or exactly the lines of a selection that exists) goes through every act of a user. Heat map and bars as membership in the flattened lists. |
| C87 | A graph object is its contents with its descriptor. A relation between object pools (marks of old objects kept, new individuals marked like some parent) goes through every update rule, the optimisation, the selection and so through all generations (`C87_marked`, `C87_inherited`, `C87_marked_start`). `speciate` is modelled a second time with distances that may raise; it refines the first when none does, and the partition theorems C31-C33 give the species under 0/1 distances (`C87_species_are_labels`). |
| C88 | The local description of a run of `propagate` (C17) gives the inputs of the joining splitter; rows of the two splitters multiply to one factor per arm (`armFactor`). Phases: trigonometry on one complex factor. Delays: the same per frequency through the inverse transform. Scores: derivative of the reading of the power as a function of the parameter, through `evaluate`. Equal arms: a geometric sum of roots of unity (`C88_dark`). |
| C89 | Model `Model/Transforms`: `propagate` of every edge model as a function of the flag and of the attribute, to the attribute afterwards and the light or exception. Proof: case distinction over the components; masks against the spectrum of the output by inversion of the Fourier transform; marks by the first minimum of the distance; the response of delay lines by C79; whole systems by the data-flow equations (C18); histories by induction. |
| C90 | Model `Model/Plots`: axes as lists of curves with labels, `scale_units` as a loop, `compare` as the two figures, `inspect_state` as a loop over the evaluation order with stored states. Proof: floor of the logarithm by monotonicity (prefix unique), loops by induction, data of the axes from the explicit time axis, absence of stored states from the data-flow invariant of `propagate` (C18). |
| C91 | Model `Model/Objective`: `graph.func` as propagation and scoring at given parameters. Proof: a family of systems is propagated symbolically (induction over the evaluation order, `Lemmas/Family`), each component kind is shown to preserve smooth families (`Lemmas/Smooth`), scores are composed; first and second order conditions from calculus along lines; best parameters by compactness; findings by explicit one-sided difference quotients. |
| C92 | Spec `Spec/Upstream`: agreement of two systems on a set of nodes closed under going upstream. Proof: induction along the evaluation order of the first system on the data-flow equations (C18); each evolution operator is shown to give a system that agrees off the downstream set; insertion order of edges from the model of networkx's adjacency; sensitivity via C91. |
| C93 | Spec `Spec/Undo`: relabelled design, two-ended design, bare design, chain. Proof: effect theorems C04-C07 composed; invariance of both ends under removals; when nothing is on offer every edge touches an end, hence the bare design; induction on the number of edges for existence with a chosen connector; induction on the chain for building. |
| C94 | Spec `Spec/Rewrite`: two edges in a row, what passes through them, same in a row, settings that add up. Proof: the states with the one in between replaced solve the data-flow equations of the new system; filters as multiplication in the spectrum, modulators as multiplication in time; invariance of the score along a line passes to derivatives. |
| C95 | Spec `Spec/Dark`: shut outputs, edges in the dark (inductively), unlit edges and nodes of a propagated system, idle components. Proof: every component but a source maps 0 to 0 (16 kinds of edges, 3 of nodes); induction over darkness; the same store solves the data-flow equations of the changed system. |
| C96 | Spec `Spec/Chances`: `mutations`, `OfferedMove`, `ChanceRun` (successive calls with the product of the probabilities drawn). Proof: induction over the run in both directions with C11 and C12; C05 and the order for pairs; counting of interfaces for the tournament with C14; C93 for chains. |
| C97 | Model `Model/Reading`: how each class reads `self.parameters`. Spec `Spec/Grow`: `DoesNothing`, `LastPorts`, `Allows` (bounds and locks of `Model/Tables`), `CanScore`, `GrownIdly`. Proof: all edges after an insertion in order; the old solution of the data-flow equations, extended by the two new edges, solves the new ones; C17's uniqueness; C55, C57 for the neutral settings, C56, C58-C61 against them; C92 for the ports. |
| C98 | No new code: `Part.optic` and `Part.connector` (`Model/Reading`), the tables, `propagate`, the operators and C75's `Lifetime`. Spec `Spec/Total`: `Trapped`, `FitsAt`, `WellEnded`, `InRange`. Proof: each class at a setting within bounds; the data-flow equations are solvable node by node in topological order; each operator keeps the ends (C75's kinds of steps), induction over histories. |
| C99 | No new code. Spec `Spec/Best`: `Tunable`, `Readable`, `Seen`, `EndsContinuous`, `SettingsTendTo`. Proof: the families of C91 (`Lemmas/Family`) with continuity within a set in place of differentiability; components jointly continuous in settings and light (C91's constructors at order 0; the splitter directly, as the square root is continuous at 0); the allowed settings as a compact convex set (product of intervals, locked parameters fixed); extreme and intermediate values; C97 for growth; C58's mask in closed form (hyperbolic cosine) for the square filter. |
| C100 | Model `Model/RandomGraph`: `evolve_graph` on the design object (graph, lineage, component objects) with the object as left behind by an exception, the loop with its `except AssertionError`, the two evolvers. Spec `PossiblePicks`, `InnerNode`, `LineageAfter`. Proof: C75's `Lifetime` and C12 give every call; induction over the picks; converse by appending picks to a history; `InnerNode` invariant by cases on the operator; C15 for the generations 0, 1 and 2. |
| C101 | Model `Model/Registry`: the five dictionaries, the decorators, the three constructors, `op_to_prob` and its updates (with the dictionary as left by a `KeyError`), sessions of actions, `crossover_graphs`. Spec `declaredOps`, `LatestOfName`, `firsts`, `lastGen`, `scheduled`. Proof: induction over the actions from the end; dictionary lemmas. |
| C102 | Model `Model/Topology` as it is; Spec/Lineage: `EvolvedUntil`, `Begets`, `NextGen`, `RuleWorks`. Proof: an invariant (`KinInv`) of the state between generations saying whose offspring the current individuals are, kept by breeding, optimising and selecting; totality by the same induction with a predicate kept by mutation and optimisation. |
| C103 | Model `Model/WholeRun` plugs `evolve_graph` (C100), the life of designs (C75) and `parameters_optimize` (C52) into the loop of `Model/Topology`. Spec/WholeRun: `Alive`, `Sound`, `Working`, `Exceeds`. Proof: C102_inherited with the predicate `Stands`; totality of every optimiser from the sizes of its vectors; C102_finishes with `Alive` and an inner node. `world_exists` shows that the assumptions about random numbers and optimisers can be met for every library, evaluator and method. |
| C104 | Model `Model/ScheduledRun` (the generation of a call from its number; the matrix for that generation). Spec/ScheduledRun: `MadeAt`, `Rule.Single`, `OpenEnd`, `Scored`. Proof: a count of calls carried through breeding and optimising (`Counted`), on top of the kinship invariant of C102; C15_schedule for which operators can be drawn; C08's size accounting; `OpenEnd` is kept by every mutation and makes exchange possible. `world_for` shows that the assumptions can be met. |
| C105 | Model `Model/Benchmarks` over the real numbers. Proof: sums of squares; bounds on cosine and exponential; Goldstein and Price's function is a product of a polynomial in x + y and one in 2x - 3y; Ackley's kink from that of the absolute value. For eggholder nothing is stated about minima: its reference point is a decimal approximation that no code uses. |
| C106 | Model `Model/Resample` on top of `Model/Caches`: a heap of noise objects with one generator, the two loops with the attribute present or missing. Proof: the loops are one loop over a list of objects; induction over it with what each renewal keeps (`SameObj`), with the stream of draws, and for two states that agree (`list_agree`). `C106_tuning` puts it together with C83. |
| C107 | From C31-C33 for the general statements. Edits: one edit after another (`Lemmas/EditCompose`), whose cost is at most the sum by inclusion and exclusion on kept nodes and edges. Class counts: the distance is a Euclidean distance over `√(n₀²+n₁²)`; a family of bundles and long chains for the failure. |
| C108 | `sys.stdout` is a chain of `Tee`s to the screen; writing is a recursion along the chain. Induction over statements for the screen, over well nested programs for the logs; the failures hold for every state with open logs. |
| C109 | Processes with the module state (noise switch, generator); a job is any function of process, stored evaluator and individual; a batch is run along any schedule that covers it. Induction over schedules with an invariant of the processes, then over histories of statements. For designs without free parameters the job is the propagation and evaluation of the earlier models. |
| C110 | `argparse` for the four options with `nargs='?'`, as a tokeniser and an automaton on the tokens; the accepted lines as an inductive set of spellings. Induction on the arguments in both directions. |
| C111 | The loops as lists of planned runs; a run as the list of its calls on the object for files, executed in the model of the disk (C77) and of the log (C108). A run depends only on what is at or below its folder and changes nothing else (relation between two worlds that agree there); induction over the runs. |
| C112 | The object as a record with all attributes, each assignment as a function that returns the object it leaves and the exception; np.linspace with its special cases; induction over the series. Broadcasting of shapes for the fields of the sources. The axes are shown to be those of the propagator on which the other theorems rest. |
| C113 | Tables as lists of rows over a field, add(fill_value=0) by recursion, folders by text, the disk of Files and the benchmark of Harness; induction over the runs and over the categories; permutation of the listing. |
| C114 | Logs as lists of pairs over a linearly ordered field, nan as none; interpolation by recursion, end as a fold, grid as a list; induction over the rows for position and monotonicity, over the logs for the end; the mean through sums. A witness of two runs for the rise. |
| C115 | The loop of plot_hof over sessions (Model/Evaluate) and the layout (Model/Layout); induction over the entries; the place of a label through the argument of a complex number. Reuses C21 (layout), C72 (evaluation). |
| C116 | The loops over the graph objects and objective functions of Model/Closure. An invariant says that all graph objects share the function of the start design and that the reported copy is left alone; a vector of the wrong length sets the same parameters as one of the right length. Reuses C73. |
| C117 | The function over the reals with numpy's formula for a triangular draw; the law is the Lebesgue measure of the draws that give at most y; induction over the mutations for the drift. |
| C118 | The static function and the function that draws, over the reals; the gain of Model/Components for comparison; the curve rewritten as a power of ten. |
| C119 | A store of noise objects with their own attributes, a class with its attributes, components pointing at objects; a refinement, by induction over the history, to a specification that reads the history backwards and knows no objects. |
| C120 | The figures as functions of the readings of C20, the noise object of C39 and the Fourier helpers of C54; equalities of curves, peaks by finite suprema. |
| C121 | The quadratic phases are periodic modulo q, so they are a sum of q shifts; the weights (Gauss sums) have equal modulus because moving by p only turns them, and Parseval fixes it; then the shift theorem. The score by C68; the missing line by the spectrum of periodic signals. |
| C122 | A number is plain or in boxes; the rule by which boxes spread is a parameter subject to a law (the depth of a result is at most that of what it is computed from). An invariant on the depth of everything stored, through writing, propagation, noise and scoring. |
| C123 | Repetition is invariance under a cyclic shift; components without a clock commute with shifts (C69), clocks in step are unchanged, so the shifted run is the run with the same components and the states are equal. Lines by the shift theorem. Steady: invariance under all shifts. Phase only: induction along the topological order. |
| C124 | Filtering the sources commutes with linear components and connectors, so the run on any light is the filtered run on the pulse with a flat spectrum; runs do not depend on the light since linear components raise always or never. Invariants along the topological order (multiples of the source; light at every d-th sample only) give the flat and the periodic responses; C71 on light of one frequency gives the bound. |
| C125 | Three runs with gains z1, z2 and a z1 + b z2 (a + b = 1) of one component have states in the same relation, by induction along the topological order (`gain_mix`): upstream all three agree, at the component by its gain, downstream by linearity. With gains 1, -1 and the turn by the phase this gives the two parts. The derivative of the sinusoid is computed; the bound compares the crest with C71. Light behind the phase shifter turns with it, by induction on `Behind`. |
| C126 | Three runs in which one component emits y1, y2 and a y1 + b y2 (a + b = 1) on the light it is given have lights in the same relation at every component, by induction along the topological order (`knob_mix`). So what a meter is fed is an affine function of what the component emits, hence a constant plus a linear map. The masks of a waveshaper are computed from a list with one bin left open (`mask_pattern`), so its response is H + z G. The sinusoid and the parabola follow from the square of the norm of u + z v; the parabola is convex. |
| C127 | The invariant 'every node has at most one edge in and one out' along History without addParallel, by cases on the kind of step (degrees after a series insertion, a removal with and without merge, a swap). Where no node has two edges in, two runs whose components differ by constant phases have lights that differ by constant phases on every edge, by induction along the topological order (`C127_no_joins`; detectors and sources forget the phase, amplifiers see only the power), so the mean reading is constant in the phase and its derivative is 0. Examples: series insertion into a line; the line with a second arm, which scores -1/2. |
| C128 | The cells of the script as functions on sessions (Model/RunSnr), the optimiser in between being any function. What a cell prints is characterised by what the design delivers with and without noise (iff); the whole script follows by cases. The evaluator's score is compared by C72_snr on a small design. |
| C129 | Spec/Ways.lean: ways from a source (Way), what a node hands on of the light of one in-edge (HandsOn), the light along a way (Along), lists of all ways (AllWays). Connectors and linear components are additive maps; induction along the topological order splits the light on each edge into ways; uniqueness of the light along a way makes every complete list equally good. Factors: induction along the way. |
| C130 | Spec/DelayNet.lean: factor and delay of each component, factor of a splitter between two ports, product along a way (WayGain), netResponse. On top of C129: what a splitter hands on of one in-edge is one term of its matrix row; induction along the way; the spectrum of the sum over ways is the sum of the spectra. |
| C131 | Model/Repeats.lean: the loop over parametersOptimize with the function built anew in the current parameters. Per run: the genetic algorithm never ends above its start (C35), L-BFGS-B descends from a start within bounds (assumed), the returned vector is what is extracted next (C23, C52); induction over the repeats. Independence: the value of a vector does not depend on what the parameters were before (C46), so no question of the swarm is answered differently. |
| C132 | On top of the closed form of C130: chord is at most arc for each way and the triangle inequality; common factors of modulus one taken out; changing the setting of one delay line keeps all ways and factors; the two-way fringe of C130 attains both ends within half an optical period. |
| C133 | Invariant over all loops: every member of the population and every evaluation is made position-wise of values drawn so far, and the number drawn so far is exact; crossing a vector with itself gives it again, and the scoring loop evaluates in the order of the population. |
| C134 | Invariant of the moments: m^2 <= A*v for each parameter (weighted Cauchy-Schwarz in each iteration); bias corrections compared by b1 <= b2; projection on the bounds never moves away from a point within; sum over the iterations. First iteration computed. |

## Findings

Where the code does not do what its documentation or its callers suppose.  Theorem names refer to the machine-checked statement;
items without a name are observations made while reading, outside the model.

Topology optimisation
1. Elitism above zero aborts the run: a scored individual reaches `parameters_optimize_complete`, which raises `RuntimeError` (`C30_elite_aborts`).
2. The `random` update rule with any speciation manager raises `TypeError` from the second generation on (`C49_*`).
3. `n_generations = 1` raises `ZeroDivisionError` (`C48_single_generation`).
4. The start design never enters the hall of fame, so the result can be worse than the start (`C48_start_not_counted`).
5. The preferential rule overwrites earlier siblings' parameters (`C50_sibling_overwritten`), does not return when the least score is zero
   (`C51_diverges`) and reverses the pressure for negative scores (`C51_reversed`).
6. `update_hof` does not keep the hall of fame pairwise dissimilar (`C27_similar_pair_possible`).
7. Roulette with zero or negative scores has no valid chances (`ValueError` from numpy).
8. `population_pass_index == len(population)` is a comparison, not an assignment.
9. The global `SPECIATION_MANAGER` of one run is still active in the next; survivors under fitness sharing are not sorted by the score the tournament uses.
10. `logbook_update(runtime=…)` in `tuning_*` is a `TypeError`.

Evolution
11. `RemoveComponent` ignores edge limits when it merges (`C10_merge_breaks_limit`); a merge can create light paths that did not exist
    (`C06_merge_can_add_paths`).
12. The Hessian evolver with a generation number of 2 or more, as `random_graph` passes, always raises `RuntimeWarning` (`C15_late_generation_raises`).
13. `SwapComponent` leaves the `'name'` attribute stale; `exclude_locked` is ignored; `CROSSOVER_OPERATORS` is empty, so the crossover evolver raises.
14. The bounds assertion in `evolve_graph` compares lists lexicographically.
15. A graph that is a single edge from source to sink has no interface, hence no mutation other than swaps.

Simulation and parameters
16. The noise switch stays at the forced value when propagation raises (`C20_switch_stuck_on_error`).
17. The layout routine does not terminate for graphs with several sources (`C21_layout_diverges`).
18. `triangle` sampling always raises `TypeError`; stepped uniform samples can leave the bounds by up to half a step (`C24_*`).
19. `NodeType` objects built without parameters share the list `default_parameters` with the attribute they modify (`C45_defaults_aliased`).
20. A filter keeps a stale transfer function when the propagator in use is changed in place (`C40_stale_after_change`); assigning a noise propagator
    directly while noise is off leaves the vectors `None`, and the next use fails (`C39_direct_set_fails`).
21. The power splitter's propagation is not power conserving (`C38_not_conserving`); with the wrong number of ratios numpy broadcasts silently;
    its ratios are reset at each `update_graph`.
22. The setter of `Propagator.window_t` always raises (`C53_window_setter`); the attribute `simulate_with_noise` set by `NoisySignal.enable_noise` is read by nothing; `resample_all_noise` raises `AttributeError` on graphs
    with edges; the acronym `DL` is used twice.

Parameter optimisation
23. Adam with zero iterations returns its input unclipped (`C37_unclipped_example`); running it in batches restarts the bias correction (`C37_batches_differ`).
24. `parameters_optimize` with a log callback: `CHEAP` never starts the logger's clock; `CMA` passes a list as population size; without unlocked
    parameters an unknown method is accepted (`C52_unknown`).
25. `utils.mutation` fails with one parameter; `crossover_singlepoint` with arrays adds instead of concatenating.
26. The optimisation log: a third algorithm overwrites rows (`C42_third_overwrites`), an unfinished generation is lost (`C42_partial_lost`).
27. `normalize_hessian` divides by the signed sum: zero sums fail and negative sums flip the signs (`C43_normalize`).

Persistence and distances
28. The minimal description loses edge keys (`C41_keys_lost`); an empty graph raises `NameError`.
29. `vectorDIFF` raises `KeyError` for every graph with terminals (`C44_vector_unregistered`) and is not bounded by 1 (`C44_vector_exceeds_one`);
    `photoNEAT` cannot be constructed (`C44_descriptors`); `EditDistance` raises `TypeError` for graphs further apart than 30 (`C44_edit_exact`).

Components
30. The frequency axis of the propagator is not the axis of the FFT it is used with: the step is off by `(n/(n-1))²` (`C53_not_fft_axis`), and on even grids
    every bin is off by half a step (`C53_shifted_axis`), so e.g. a low-pass never sees frequency zero.
31. `save_transforms=True` raises `NameError` in `DispersiveFiber` and `PhaseShifter` (`C55_*`).
32. `SquareFilter` divides by zero at its lower bound (`C58_square_filter`).
33. `WaveShaper` raises `ValueError` when its bins exceed the grid by an odd number of samples (`C59_wave_shaper`); its phase padding is the extinction ratio.
34. `ProgrammableFilter` extrapolates its polynomial on odd grids and can amplify (`C60_filter_odd`).
35. `OpticalAmplifier` with `alpha < 1` does not saturate (`C61_no_saturation`); its default `band_lower` (1520 nm) is below its lower bound (1530 nm).
36. `IntegratedSplitAndDelayLine` has a "loss" of +1 dB (`C64_loss_amplifies`).
37. On grids with an even number of samples the filters make real signals complex: a constant photocurrent comes out of the photodiode's low-pass nowhere real and with
    another level (`C65_even_not_real`); cause: no bin has frequency zero (finding 30 on the grid).
38. `PulsedLaser` with shape `delta` is a single impulse at the first sample, not a train (`C63_pulsed_laser`); `Impulse` is one sample off the
    middle of the window on odd grids (`C63_impulse`).
39. Linewidth noise is `nan` on every grid with an odd number of samples: its spectrum divides by the frequency zero (`C66_linewidth_odd`).
40. `similarity_cosine` divides by the product of l1 norms and is not the cosine (`C67_cosine_not_cosine`); the NOT-gate evaluator minimises it although it is a
    similarity (`C67_not_gate_reversed`); `similarity_mask` lacks parentheses (`C67_mask_precedence`).
41. `RadioFrequencyWaveformGeneration` aligns with the wrong sign: a late target is made later by more than the delay instead of being shifted back
    (`C68_rf_wrong_way`), so a delayed perfect waveform has a positive score (`C68_rf_delay_penalised`).
42. The harmonic index is cut to `n`, which is not an index: `IndexError` on every evaluation (`C68_index_error`); on the propagator's own frequency axis it
    is one bin too high (`C68_index_off_by_one`).
43. Designs saved by `save_hof` lose their optimised splitter ratios, because copying calls `update_graph`, which resets them (`C70_copy_faithful_iff`,
    `C70_copy_output_changes`); for the same reason the optimiser never starts from the parent's ratios, contrary to the comment in `parameters_optimize_complete`
    (`C70_start_point`).
44. `save_hof(type='minimal')` raises before writing anything; an unfilled place of the hall of fame ends saving with `AttributeError`; an unknown type writes nothing
    without notice (`C70_save_hof`).
45. A splitter with more inputs than outputs creates energy: two lasers of opposite phase on a two-to-one connector deliver twice the energy they emit
    (`C71_combiner_gains`), so that an optimiser maximising power can profit from combiners that do not exist.
46. `SignalNoiseRatio.evaluate_graph` leaves `AdditiveNoise.simulate_with_noise` on, so every later score is that of the noisy system, and as scores are minimised
    it prefers more noise (`C72_snr`, `C72_findings`).
47. `RadioFrequencyWaveformGeneration.evaluate_graph` does not propagate: `KeyError` on a fresh graph, the score of old parameters otherwise (`C72_stored`,
    `C72_findings`). The objective function built by `initialize_func_grad_hess` propagates first and is right.
48. `DiscreteTimeLens` reads edge `(0, 1, 0)`; once evolution puts a component in series there, evaluation raises `KeyError` (`C72_time_lens`).
49. `SecondOrderDifferentialSensitivity` differentiates with respect to the component objects of the graph it was created with, so every copy scores 0
    (`C72_second_foreign`).
50. A deep-copied graph carries the objective function of the original, so `func`, `grad` and `hess` of hall-of-fame entries work on other graph objects, and
    `scripts/run_derivative_phase_terms.py:106-119`, which copies, evolves and optimises without initialising again, optimises the start design at every step
    (`C73_copy`, `C73_copy_blind`, `C73_wrong_design`). The main loop is right because `parameters_optimize_complete` always initialises (`C73_complete`).
51. `parameters_optimize_complete` stores `graph.hess(parameters)`, not `graph.scaled_hess(parameters)`, as `scaled_hess_matrix`
    (`algorithms/topology_optimization.py:554`). The sensitivity tournament then compares second derivatives in different units: milliwatts against hertz. A
    change of units changes which component is the least sensitive one (`C74_run_depends_on_units`); with `scaled_hess` it could not (`C74_unit_free`).
52. `plot_eigenvectors` iterates over the rows of the eigenvector matrix, whose columns are the eigenvectors (`C74_plot_rows`).
53. Tuned splitter ratios are lost at every `update_graph` (`multi_path.py:35-52`): after each evolution step and again at the start of each parameter
    optimisation, where a comment says resampling was "removed to keep old parameters" (`topology_optimization.py:545-547`). All other parameters are kept
    (`C75_evolve`, `C75_update`).
54. The bounds assertion after evolution (`evolver.py:78-80`) compares Python lists, hence lexicographically: it passes with any value of the second
    parameter (`C75_guard`). It cannot fire on reachable designs (`C75_evolve`).
55. `IntensityModulator.min_frequency`/`max_frequency`, which `scripts/run_better_awg.py:54-56` sets, are never read; the bounds are literals
    (`single_path.py:208-209`, `C75_tables_off`).
56. `ProgrammableFilter.number_of_bases` can only be 10: `number_of_parameters` is computed when the class is defined, so fewer bases leave variable
    parameters without bounds, and extraction raises IndexError (`C75_tables_off`).
57. The amplifier's default lower band edge, 1520 nm, is below its own lower bound of 1530 nm; the entry is locked, so nothing checks it
    (`C75_tables_off`).
58. `vectorDIFF` cannot be used: its basis is `NODE_TYPES_ALL`, which never contains the terminals, and `custom_library` cannot add them (`KeyError: 'NodeType'`); every design has terminals, so every distance is a `KeyError` (`C76_vector_terminals`).
59. `custom_library` accepts `FrequencySplitter` and `IntegratedSplitAndDelayLine`, which no decorator registers: evolution draws them, the designs can be saved, but `build_from_minimal_graph_info` raises `KeyError` (`C76_surprises`, `C76_reload`).
60. A component module imported after `custom_library` brings its classes back into the library; an evolver constructed before the call keeps the old one (`C76_surprises`, `C76_snapshot`).
61. A component class derived from another component (e.g. from `PhaseModulator`) is registered under that component's name and is never drawn (`C76_foreign`).
62. `save_object` makes missing folders, `save_json`, `save_fig` and `init_logging` do not; a run without `init_save_dir` in a directory that does not exist ends with `FileNotFoundError` before anything is saved (`C77_save_object`, `C77_save_json`, `C77_run_no_folder`).
63. A save that fails in the serialiser has already emptied the file: the result saved before under that name is lost (`C77_save_json`, `C77_save_object`, `C77_surprises`).
64. `unique_id` is not unique: 22⁴ identifiers for a day; runs that draw the same share a folder and overwrite each other silently (`C77_not_unique`, `C77_surprises`).
65. After `init_save_dir` with an identifier (the default) neither `load_object` nor `init_load_dir(sub_path)` finds what was saved: the folder name with the identifier must be taken from `save_path` (`C77_identifier_needed`).
66. `save_machine_metadata()` writes to the directory shared by all runs, not to the save folder; with an absolute string it raises `AttributeError`; the example of the class documentation puts the file into `test/test` (`C77_metadata`, `C77_surprises`).
67. On a machine whose data cannot be collected (for instance without a resolvable host name) `get_machine_metadata` returns `None` and `save_machine_metadata` raises `TypeError` (`C77_metadata`).
68. A failed `init_load_dir` leaves the object pointing to the missing folder (`C77_surprises`).
69. Two classes have the acronym `DL` (`DelayLine`, `single_path.py:730`; `IntegratedDelayLine`, `:788`): in a design with both, two different components carry the same name in the viewer (`C78_names_unique`).
70. A design loaded from its description cannot be scored: evaluators measure at the node `'sink'`, but the labels of a loaded design are nicknames with a dot (`TerminalSink.3`) and those in the viewer integers: `KeyError` (`C78_score`).
71. **Delay lines advance the light** (`C79_delay_line`, `C79_earlier`): with numpy's sign convention `exp(+i w t)` moves a signal to earlier times, so a `DelayLine` with a positive delay makes every pulse arrive earlier, and by `(n/(n-1))^2` more than the delay set, because of the frequency axis (finding 30). (`save_transforms` marks the time `-delay`.)
72. **The fibre has twice the dispersion it declares** (`C79_fibre_beat`): the mask is `exp(i L beta2 w^2)`; a fibre with dispersion `beta2` has `exp(i L beta2 w^2 / 2)`. Lengths found by the optimiser are half of what a real fibre needs.
73. **The longest delay of the split-and-delay line is never used** (`C64_last_delay_unused`, `C64_no_other_delay`): the line ends in the short arm behind the last coupler, so of the eight delays 1 ps ... 128 ps the last has no effect, and the delays available are 0 ... 127 ps.
74. `FilterDesign` hands `f / fsr` to `scipy.signal.square`, whose period is 2π: the bands it asks for are `2π·width` wide and `2π·fsr` apart (`evaluator_filter_design.py:18-21`). A design that passes light 30 GHz from the centre of a 20 GHz band is perfect, and on grids narrower than the first band every lit design is (`C80_filter_bands`, `C80_filter_blind`).
75. `DiscreteTimeLens` takes `cos(f / fsr + phase)**2`, with fringes `π·fsr` apart rather than `fsr` (`evaluator_discrete_time_lens.py:18-20`, `C80_lens_fringes`).
76. A photodiode shows parameters it does not use: element writes (`set_parameter_from_name`, `distribute_parameters_from_list`) change neither voltage nor noise, and its filter keeps bandwidth and order of construction even when `parameters` is assigned, while its Johnson noise takes the new bandwidth (`outputs.py:115,118-150`; `C81_photodiode_assigned`, `C81_filter_fixed`, `C81_stale`).
77. Linewidth and OSNR written to a laser or phase modulator by name or by the tuner do not reach the noise, although the class says to unlock and optimise the linewidth (`single_path.py:163-171,189-190`, `inputs.py:115-117`); a pulsed laser keeps the linewidth of construction through everything (`inputs.py:44`; `C81_noise_built`, `C81_stale`).
78. `PhaseModulator(phase_noise_points=…)` without `parameters` or `parameters_from_name` ignores the points; with `parameters` it overwrites position 3 of the list of the caller (`single_path.py:130-137`; `C81_points`).
79. `default_parameters` and `parameters` of a component built from defaults or by name are one list, so the defaults change with the parameters (`base_classes.py:18-30`; `C81_defaults`).
80. `C82_power`: the amplifier adds the average over the frequency bins of the powers in `expected_power_dist`, not their sum: with n samples the noise power is too small by a factor n (and by ((n-1)/n)²) (single_path.py:487, additive_noise.py:142-143).
81. `C82_quieter_with_gain`: for `alpha` above 1 (bounds allow 1.5) a saturated amplifier gets weaker when its small-signal gain is raised (single_path.py:503).
82. `C82_fine_grid`: if the time step is below half a period of the light, frequencies of the grid are negative and the noise of every amplifier is `nan` (single_path.py:487-490).
83. `C83_ga_never_returns`, `C83_ga_type_error`: `tuning_genetic_algorithm` hands `runtime=` to `logbook_update`, which has no such parameter; every run with a generation ends in `TypeError`, if not in an exception before, and loses its population (parameter_optimization_utils.py:229, functions.py:18).
84. `C83_adam_never_returns`, `C83_adam_key_error`: `lib/hessian.function_wrapper` reads `info['node_edge_index']`, which the extraction only provides on request; every call of the function it returns raises `KeyError`, so gradient descent in the utilities and the Hessians of `lib/hessian.py:25-40` cannot be computed (lib/hessian.py:92-95, lib/graph.py:532-536).
85. `C83_unsorted`: without generations `tuning_genetic_algorithm` returns its population unsorted, against its documentation (parameter_optimization_utils.py:170-180).
86. `C83_one_parameter`: `mutation` of the utilities raises `ValueError` for graphs with one free parameter (parameter_optimization_utils.py:65).
87. `C83_switch`: both functions leave the class variable `AdditiveNoise.simulate_with_noise` changed, also when they raise (parameter_optimization_utils.py:166,357).
88. `C83_stale_scores`: scores of survivors are not renewed when the noise is drawn anew, so a lucky draw keeps an individual at the top (parameter_optimization_utils.py:186-225).
89. `get_estimated_FWHM_linewidth_from_points` fits on a linear scale: with points at decades, as in data sheets and in `test_noise_verification.py:559`, every point but the one closest to the carrier has a weight of at most 10⁻⁴; the measured curve at larger offsets is practically ignored (`C84_nearest`).
90. The phase noise of a linewidth is periodic with the time window: fields near the two ends of the window are as coherent as neighbours, however long the window is compared with the coherence time (`C85_stationary`).
91. Curves of edges in the viewer have 100 points at parameters 0 to 0.99, so they stop short of the node they lead to, by up to 3 % of the horizontal distance (`C86_ends`).
92. Parallel edges between nodes at the same height are drawn over each other (`C86_parallel`).
93. Loading another design into the viewer keeps the selection and the table: the table shows parameters of the design before until the selection changes (`C86_load_keeps`); a number kept from a larger design makes the next extended selection fail with an empty table (`C86_stale_selection`).
94. A loading that fails has cleared the plots already: the design before remains drawn and in the table, but none of its lines can be shown any more, and the button keeps saying that it is loading (`C86_failed_load`).
95. The eigenvector plot is cut at height n + 2 while the vectors are stacked two apart: from six parameters on the last ones are out of view (`C86_eigen_cut`).
96. `update_population_topology_preferential_editDistance` exists but no name selects it; both photoNEAT names are accepted and raise ValueError in the first generation (`C87_rules`, `C87_setup_else`).
97. The setup looks at the descriptor of the first individual only, and a copy of a design carries its descriptor: a run started from a result of an earlier speciated run is never set up. In a fresh process it is silently not speciated at all (`C87_marked_start`).
98. The manager is global and never reset: after a speciated run, a run without scheme in the same process raises TypeError at its first speciation, and a run with another scheme from a marked design ValueError (`C87_leftover_manager`).
99. The turns of the two splitters add up instead of cancelling: N ≥ 3 equal arms between two splitters at the default even split cancel exactly, for every input (`C88_dark`). With two arms all the light comes out.
100. The frequency splitter is not passive: where many bands begin and end at one frequency, every output in between carries a quarter of the amplitude there, so the energy grows with the number of outputs without limit (`C38_frequency_gain`; with two outputs it is passive, `C38_frequency_passive`). The two ends of the spectrum are attenuated to half in every setting (`C38_frequency_edges`).
101. A list with too few values is accepted by the sources, which make their noise from default values instead (`C81_short_list`).
102. The record of an amplifier, labelled "gain (dB)", is `10·log10(sqrt(gain))`, half the gain in decibels; on an odd number of samples it stands one place to the right on the frequency axis because `ifft_shift_` is applied twice (`C89_amplifier`). Amplifiers keep their last record through later uses without recording (`C89_history`).
103. Stages of the split-and-delay line whose delays fall on the same sample hide each other in its record: in windows up to 128 ps two settings, one transparent and one blocking, have the same record (`C89_hidden_stage`). All delays beyond half the window are recorded at the first sample (`C89_delay_outside`).
104. No design with a fibre or a phase shifter can be propagated with `save_transforms=True` (`C89_whole_system`; finding 31 for single components).
105. Calling `scale_units` again on an axis leaves the scaled values and appends the unit without prefix, so that the label is wrong by the factor of the prefix (`C90_twice`).
106. The second figure of `compare` of the evaluators plots the spectrum over bin numbers under an axis labelled in hertz with an SI prefix (`C90_compare`); the first shows the square of the state that is scored against the target (`C90_compare_squared`); for `NoiseSuppression`, which has no `target`, `compare` raises `AttributeError` (`C90_compare_noise`).
107. `Graph.inspect_state` raises `KeyError` for every design with an edge, since states are stored under a node only when it has no output (`C90_inspect_state`).
108. At splitter ratio 0 or 1 the output of a two-arm interferometer has no derivative with respect to the ratio (`C91_splitter_edge`); these are exactly the bounds the ratio has, and clipping after mutation and the bounded optimizers put parameters there.
109. The filter-design score has a kink at every output with a dark spectral line, such as a constant field (`C91_filter_kink`); automatic differentiation of `np.abs` at zero is not a derivative there.
110. Inserting a component into an arm behind a node with several outputs moves that arm to the last port and the arms behind it one port forward (`C92_insert_ports`), so behind a power splitter with two arms the light in the other, untouched arm changes from share r to share 1-r (`C92_insert_exchanges`).
111. A component added in parallel between two nodes not already connected by a path cannot be taken out again: removing it finds no other path between its ends and merges the two nodes, so e.g. a cross-link between two arms, once tried, leaves the arms joined (`C93_parallel_undo`).
112. A modulator and a delay line may change places only if the modulation is periodic with the delay (`C94_modulator_delay`).
113. An attenuator in front of a saturating amplifier gives strictly more light in every lit spectral line than the same attenuator behind it (`C94_attenuate_first`).
114. The Hessian analysis cannot see redundancy: of two fibres, delays, attenuators, phase shifters in a row, one is superfluous, yet both get the same slope, the same row and column and the same sensitivity score (`C94_hidden`); best parameters of such a design are never unique (`C94_only_the_sum`). `scripts/build_redundant_system.py` builds such a system.
115. A component in an arm that gets no light has sensitivity 0 (`C95_free_wheeling`), which is what removal is guided by, yet taking the arm out doubles the power in the arm beside it, since a power splitter loses the share of unused outputs (`C95_prune`).
116. Of two nodes without a path between them the evolver offers a parallel component in one direction only, decided by networkx's sort; the other direction is legal and never tried (`C96_one_direction`).
117. The Hessian-based evolver never removes a component that more than half of the removable ones score below; with three removable components or more the highest-scoring one is never removed, whatever the shuffle (`C96_sensitive_half`, `C96_never_drawn`).
118. Only six classes can be switched off within their bounds. A phase modulator cannot (depth at least 0.001), intensity modulator, wave shaper and programmable filter always lose their insertion loss, the square filter never transmits fully, an amplifier as locked always amplifies or saturates: inserting one of these can make the best reachable score worse (`C97_never_idle`).
119. Inserting a component that does nothing into the first arm of an unequal splitter changes the light in the other arm (`C97_ports_matter`): the mutation is not neutral even at neutral settings.
120. A design whose source terminal has two outgoing edges raises `IndexError` at every setting, and so does any terminal with more outputs than inputs (`C98_runs`, example `Steady.fan`). `assert_number_of_edges`, which says it checks "that the proper number of input/output edges are connected", only checks that the graph is acyclic and accepts it, as do `init_graph` and the declared `_range_output_edges`.
121. With a square filter in the design an optimiser may have nothing to find: on an even grid every bandwidth within bounds at which the filter works has a narrower one that passes strictly less of every signal, and the limit, the lower bound 0 itself, raises `ZeroDivisionError` (`C99_square_filter`).
122. `HessianProbabilityEvolver.random_graph` passes `generation=n` where a fraction of the run is expected: with three or more evolutions (default ten) it raises `RuntimeWarning` in the third call, unless nothing can be removed or exchanged then; the caller's design keeps the one or two mutations made (`C100_hessian`).
123. A design whose source is connected straight to the sink can never be grown by any operator: interfaces exist only at nodes with an edge in and an edge out (`C100_inner`, `C100_bare`).
124. `random_graph` swallows the assertion on the bounds of `evolve_graph`, but the mutation it refuses has already been made and stays, with parameters out of bounds and with the ids and latest mutation from before (`C100_refused`).
125. The weights of a Hessian evolver are overwritten by every call with a generation and kept: a call without one uses those of the last call, for whatever design that was, not those of the constructor (`C101_schedule`).
126. Registering any evolution operator beyond the four makes the Hessian evolver unusable: constructor and every call with a generation raise `KeyError` (`C101_unknown`).
127. When the operator module is executed again (reload), existing Hessian evolvers write their schedule under the new classes and keep drawing with the weights they had (`C101_frozen`).
128. No class is registered as crossover operator, so `crossover_graphs` always raises `RuntimeError` (`C101_crossover`).
129. The preferential rule writes the parent's parameter values to the parameter slots of the child of the round before, whatever components these belong to: a run from a design within its bounds evaluates and records designs with parameters above their upper bounds (`C103_preferential_exceeds`).
130. In the last generation of a run (`generation = 1`) the Hessian evolver gives insertions the weight 0, so it raises `RuntimeWarning` on a design that offers neither removal nor exchange, and the whole run is lost. Only one node class is registered (`multi_path.py:78` is commented out) and scripts protect light source and detector, so every bare design is of this kind; a run from one, with random numbers the matrices allow, inserts, removes and is lost (`C104_stuck`, `C104_run_lost`).
131. `sphere_function` gives (0.1, 0.1) as its reference point, which is not its minimum (`C105_sphere`); `eggholder_function` and `gaussian_function` leave the reference point out of what they return, so `TestFunction` raises `ValueError` (`C105_unusable`), and the point written down for the gaussian is its maximum (`C105_gaussian`).
132. `beale_function` has the y-range `[-4.5, 4,5]`, three entries for a typing error, so the mesh ends at 4 (`C105_mesh`).
133. `resample_all_noise` reads `self._propagate_on_edges`, which is assigned nowhere, and raises `AttributeError` on every graph with an edge (`C106_written`); with their default settings both tuning functions end there (`C106_tuning`, `C83_no_renewal`).
134. With that attribute present, `resample_all_noise` raises `ValueError` on graphs not propagated before, as with `resample_per_individual` on a new graph, and leaves some objects renewed and some not (`C106_outcome`, `C106_stops`).
135. The class-count distance `vectorDIFF` is divided by the sizes of the two designs and violates the triangle inequality: a species of radius 9/10 around a long chain can hold designs arbitrarily far apart (`C107_vector_unbounded`).
136. `EditDistance` with a threshold of 1 or more edits is not transitive: which designs share a species depends on which is the representative (`C107_edit_defect`).
137. `Tee.flush` closes the log file: after `sys.stdout.flush()` or `print(..., flush=True)` during logging the next `print` raises `ValueError: I/O operation on closed file` (`C108_flush`).
138. `topology_optimization` has no `try`/`finally` around its body: if it raises (an unknown `update_rule` does at once) logging stays on, and everything printed later goes to the log of the failed run (`C108_failed`).
139. `init_logging` twice on one `InputOutput` loses the first `Tee`: `close_logging` then never restores `sys.stdout` (`C108_reentered`); ending overlapping logs in the order they began leaves a closed log in place (`C108_crossed`).
140. The log is opened with mode `'w'` under a fixed name: a second run with the same `InputOutput` erases the log of the first (`C108_files`).
141. `AdditiveNoise.simulate_with_noise = False` in a script (`run_filter_design.py:64`, `test_filter_design.py:64`, before `topology_optimization`) has no effect on the workers, which import the class anew with `True`: the start of the run is scored without noise (line 79), every later individual with noise (`C109_noise`, `C109_noise_findings`).
142. `random.seed(i)`, `np.random.seed(i)` in `compare_evolvers.py:53-54` and `benchmark_elitism.py:50-51` seed the process of the script only; parameter optimisation draws in the workers, so that the runs cannot be repeated (`C109_seed`).
143. A signal-to-noise evaluation that raises on a worker leaves `simulate_with_noise = False` there, and later tasks get other scores on this worker than elsewhere (`C109_noise_findings`).
144. `type=bool` with `nargs='?'`: `-v` alone gives `None`, which switches the messages off (even after `-v True`), while `-v False`, `-v 0` and `-v no` switch them on (`C110_verbose`).
145. The name of the selection rule is not checked when the command line is read; `-s` with a mistyped name or without name is only rejected inside `topology_optimization`, after `init_logging` (`C110_selection`); in `compare_evolvers.py` the bare `except` then lets all 18 runs fail one after the other, each with the message of a fatal error in the evolver.
146. A run that fails in `compare_evolvers.py` is caught, but its log stays in `sys.stdout`: the log file of the run receives all that later runs print, and after each failure every text is written to one more file (`C111_log`).
147. In `compare_evolvers.py` the folder of a run is named by the class of the evolver; two evolvers of one class with different settings write to the same folders (`C111_same_class`).
148. `benchmark_elitism.py` and `benchmark_selection_rules.py` catch nothing: one run that fails ends the benchmark (`C111_stops`), whereas the bare `except` of `compare_evolvers.py` catches even an interrupt from the keyboard and goes on with the next run (`C111_folders`).
149. The setter of `n_samples` leaves `state` and `wl` of the old length. The continuous-wave laser and the impulse take the shape of `propagator.state`, so after a change of `n_samples` they send fields of the old length, and the first modulator raises `ValueError`; pulsed lasers are not affected (`C112_sources`, `C112_consistent`).
150. A value refused by the setter of `n_samples` (a float such as `2e3`, a negative number, `None`) raises but stays in `n_samples`, which then disagrees with the lengths of the axes (`C112_refused`).
151. The setter of `state` accepts an array of any shape; with a flat array of `n` entries a modulator behind the continuous-wave laser makes an `n` by `n` matrix (`C112_any_shape`).
152. `display_log_data` adds the logs with `fill_value=0` and divides by the number of all runs: for generations that only some runs have (runs ended by the time limit or an exception) both the value and the generation on the axis are too low by the share of these runs (`C113_short`).
153. One run without `log.pkl` (each run that failed before its end), or any other entry in the folder of a setting, makes `display_log_data` raise, and nothing of the other settings is shown (`C113_missing`).
154. A ratio that Python writes with an exponent has no folder for the analysis: `5e-05` raises `IndexError`, `1.5e-05` is looked for in `..._elitismRatio0_5e-05` and not in `..._elitismRatio1_5e-05`, where the benchmark puts it (`C113_folder_exponent`).
155. The title of the figure gives as number of runs that of the last category, whatever the others have (`C113_shown`).
156. In the condensed comparison of methods a run counts only from its first logged row on, which for a population method is the end of its first generation; so the mean is over a changing set of runs and can rise although no run does (`C114_rises`). All logs of a method limit the end of the figure, also those that are not averaged (`C114_figure`).
157. `plot_hof` reads `evaluator.target`, which `DiscreteTimeLens`, `FilterDesign` and `NoiseSuppression` do not have: with them it raises `AttributeError` after the first design has been simulated and drawn, and no figure is saved (`C115_no_target`).
158. One entry of the hall of fame with two sources keeps `plot_hof` running for ever, and one that cannot be simulated makes it raise; in both cases the rows of all other entries are lost (`C115_two_sources`, `C115_failure`).
159. `scripts/run_derivative_phase_terms.py` evolves copies of a graph and optimises them without initialising the objective function again: all 36 scores are scores of the start design, the design printed has nothing to do with the loss it was chosen for (`C116_scores_start`, `C116_no_better`, `C116_wrong_loss`).
160. `triangle_sample` cuts integers towards zero (`int(...)`) where it should round: a positive integer parameter with a range below 40 is lowered by one half of the mutations and raised by none (`C117_int_one_way`, `C117_drift`).
161. `triangle_sample` with a step size, or with integers and bounds that are not integers, can leave the bounds (`C117_step_outside`, `C117_int_outside`); a parameter whose bounds are equal is a `ValueError` (`C117_refused`).
162. `OpticalAmplifier.display_small_signal_gain` calls `range` with wavelengths in metres, which are floats: always a `TypeError` (`C118_display`).
163. `AdditiveNoise.noise_on = False` (`scripts/compare_optimize_with_without_noise.py:30`, `scripts/build_example_system.py:30`, `testing/test_graph.py:32`) does not switch any noise off: every object has a `noise_on` of its own (`C119_idle`).
164. `NoisySignal.enable_noise`/`disable_noise` set `simulate_with_noise` on the object, which nobody reads: enabling does nothing while the class is off (`C119_idle`, `C119_off`).
165. Assigning `component.parameters` switches the noise of a CW laser or a photodiode on again, after `noise_model.noise_on = False`; the other components stay off (`C119_back`).
166. The phase noise of a modulator cannot be switched off for the one modulator: `get_phase_noise` does not ask `noise_on` (`C119_deaf`).
167. `display_noisy_signal` and `display_noise` plot `ifft_shift_` of the power over `propagator.t`: every instant is shown half a window away (`C120_noisy`, `C120_noise`); `display_noise_contributions` does not shift.
168. `display_noise` with noise switched off divides zero by zero: a spectrum of nan (`C120_noise`).
169. `display_noise_sources_absolute(propagator)` ignores the propagator if the object has one already, and shows the old vectors over the axes of the new one (`C120_sources`); with `simulate_with_noise` off an unused object is a `TypeError` (`C120_sources_fresh`).
170. `scripts/batch_pulse_rep.py`, `run_pulse_rep.py`, `test_pulse_rep_talbot.py` construct `PulseRepetition` with the repetition time of the input laser, not of the target; for a target of a multiple of the rate the reference line of `shift_function` is empty: a division by zero (in floating point: by rounding noise) for outputs with that line, no alignment for the others (`C121_wrong_reference`, `C121_late`). With the repetition time of the target the exact design scores zero (`C121_perfect`).
171. `extract_attributes_to_list_experimental(['parameters'])` gives tracers (`ArrayBox`) after `graph.grad` or `graph.hess`; only `extract_parameters_to_list` unpacks them. `graph.hess` at what it gives buries the parameters two boxes deeper each time (`C122_deeper`), and after a derivative the design itself holds tracers until the next call of `graph.func` (`C122_needed`).
172. `shift_function` of `RadioFrequencyWaveformGeneration` and `PulseRepetition` align nothing if the output has no line at the harmonic of the target; by the rhythm of the modulators that is so for every design whose common rate is a higher one (`C123_off_beat`).
173. `np.linspace` samples both ends of the window, so a modulator with whole periods in `window_t`, as in the scripts (e.g. 12 GHz and 10/12e9 s), is out of step with itself around the end of the grid on which the Fourier transforms work (`C123_window`).
174. A search like that of `scripts/run_phase_sensitivity.py` starts from a line (laser, phase shifter, meter). Its start and all designs made from it by series insertions, removals and swaps have exactly the same score, 0, whatever the parameters: parameter optimisation cannot tell them apart, and only a step of addParallel leaves this plateau (`C127_blind`, `C127_parallel_needed`).
175. `scripts/run_snr.py:62` and 86 divide `state_noise` by itself: the printed SNR is 1 for every design and every noise, before and after the optimisation (`C128_prints_one`, `C128_script`, `C128_not_the_score`).
176. The thirty repeats of `run_discrete_time_lens.py` are no independent runs: the graph is made anew from the same component objects, whose parameters are those the repeat before ended with, and the genetic algorithm starts with copies of them (`C131_not_independent`, `C131_lbfgs_ga`). Its first start lies outside of the bounds (depth 11 above pi, shift 0 below 0.01), which the genetic algorithm does not mind (`C131_bounds_ignored`); L-BFGS-B brings it back.
177. DelayLine declares parameter_imprecisions = [10.0e-12] (10 ps, single_path.py:742) and IntegratedDelayLine 1 ps with a step of 1 ps (single_path.py:809-810), but propagate turns the light by the full optical frequency times the delay: half a period at 193 THz is 2.6 fs. Within the declared imprecision the interference of two ways goes through its brightest and its darkest at every single spectral line (`C132_imprecise`, shown beside it with 10 ps), so the response found for such a design says nothing about a device built to the declared precision.
178. The method 'GA' of parameters_optimize (`parameter_optimization.py:248-251`) has no local step: values are only redistributed, never changed, so no run tries more than 1121 values of a parameter, and 48 of the first 49 evaluations are of the start vector, whose score is known from the first (`C133_values`, `C133_few`, `C133_copies`).
179. Method ADAM takes all parameters in their own units with one step_size = 0.001 (`parameter_optimization.py:205-208`): in its 1000 iterations it cannot change a fiber length (0 to 1000 km, in metres) by more than 25 m or a modulation frequency (in Hz) by more than 25 Hz (`C134_reach`, `C134_method`), while the first step takes every delay of a DelayLine (0 to 2 ns, in seconds) to one of its bounds wherever it was (`C134_jump`).

## How precise the line citations are

Most definitions in `Model/` cite the lines they model exactly. About 280 small helpers say "Part of the model of" and repeat the ranges of the section or file header they stand under.
These were filled in by a script, so they name the enclosing code and not the exact lines. A header that cites more than two ranges is represented by its first two.
About 170 others were added at the same time, by matching function names or from a list written by hand. They were not each read again against the source.
