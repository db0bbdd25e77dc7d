{"id": "C01", "title": "Evolution never creates a feedback loop", "statement": "Starting from an acyclic system, applying any registered evolution operator at any location that operator offers yields an acyclic system again; hence every graph reachable by any number of evolution steps, with any random choices, is a DAG.", "quantifier": "all graphs, all operators, all offered locations, all random component choices, all finite evolution histories", "why_tests_cant": "Tests run a few dozen random mutations from a handful of seeds; the merge branch of component removal only makes a cycle for particular multi-path topologies.", "anchors": ["simulator/fiber/evolution_operators/evolution_operators.py:AddSeriesComponent.apply_evolution", "simulator/fiber/evolution_operators/evolution_operators.py:AddParallelComponent.apply_evolution", "simulator/fiber/evolution_operators/evolution_operators.py:RemoveComponent.apply_evolution", "simulator/fiber/evolution_operators/evolution_operators.py:SwapComponent.apply_evolution", "simulator/fiber/evolver.py:ProbabilityLookupEvolver.random_graph"]}
{"id": "C02", "title": "Every component stays on a light path from the source to the sink", "statement": "If every node of the starting graph lies on a directed path from the source terminal to the sink terminal, the same holds after any history of evolution operators; no operator leaves a dangling or disconnected part, and no new source or sink appears.", "quantifier": "all well-formed graphs, all operators and offered locations, all histories", "why_tests_cant": "A dangling part only shows after rare remove/merge combinations; sampling histories cannot exclude it.", "anchors": ["simulator/fiber/evolution_operators/evolution_operators.py:RemoveComponent.apply_evolution", "simulator/fiber/evolution_operators/evolution_operators.py:AddSeriesComponent.apply_evolution", "lib/graph.py:Graph.interfaces"]}
{"id": "C03", "title": "Terminals and protected components survive every evolution history", "statement": "The source and sink terminal nodes keep their identity and model, and any component whose model is marked protected is neither removed nor replaced, in every graph reachable by evolution.", "quantifier": "all graphs, all histories of operators at offered locations", "why_tests_cant": "Has to hold for every history; a test only shows that one protected element survived one run.", "anchors": ["simulator/fiber/evolution_operators/evolution_operators.py:RemoveComponent.possible_evo_locations", "simulator/fiber/evolution_operators/evolution_operators.py:SwapComponent.possible_evo_locations", "simulator/fiber/evolution_operators/evolution_operators.py:AddParallelComponent.possible_evo_locations"]}
{"id": "C04", "title": "Adding a component in series inserts exactly one node and one component and loses nothing", "statement": "Adding in series at an interface keeps every existing node and every other edge (same endpoints, key and component), keeps the component of the interface edge (its end away from the interface is unchanged), and adds exactly one fresh node and one new component between the interface node and the new node.", "quantifier": "all well-formed graphs, all interfaces, all fresh ids and all new components", "why_tests_cant": "Edge keys in a multigraph are reassigned; only an argument over all key assignments shows nothing is overwritten.", "anchors": ["simulator/fiber/evolution_operators/evolution_operators.py:AddSeriesComponent.apply_evolution", "lib/graph.py:Graph.interfaces"]}
{"id": "C05", "title": "Adding a component in parallel adds exactly one forward edge between legal nodes", "statement": "Every pair offered for a parallel component has distinct, non-terminal, non-protected end nodes, both below their edge limit, with no path from the second to the first; applying it adds exactly one new edge and changes nothing else.", "quantifier": "all DAGs, every topological order the library may return, all offered pairs", "why_tests_cant": "Depends on every topological order the library may return.", "anchors": ["simulator/fiber/evolution_operators/evolution_operators.py:AddParallelComponent"]}
{"id": "C06", "title": "Removing a component removes exactly that component and keeps connectivity", "statement": "Removing a component at an offered interface deletes exactly that edge; its end nodes are merged (under the first node's id) exactly when no other path connects them; every other component survives exactly once between the images of its end nodes; no connection between surviving nodes is lost, without a merge reachability is exactly as before, and after a merge the only new connections lead from what reached the edge's end to what its start reached; the merged node keeps the model of the interface's node.", "quantifier": "all well-formed DAGs, all offered interfaces", "why_tests_cant": "Needs reasoning about all paths in arbitrary multigraphs; unit tests exercise a few fixed topologies.", "anchors": ["simulator/fiber/evolution_operators/evolution_operators.py:RemoveComponent.apply_evolution", "simulator/fiber/evolution_operators/evolution_operators.py:RemoveComponent.possible_evo_locations"]}
{"id": "C07", "title": "Swapping changes one component's type and nothing else", "statement": "Swapping at an offered location replaces that location's model by one of a different class taken from the library category matching the location (source / sink / ordinary edge / node) and leaves the topology and all other models untouched.", "quantifier": "all graphs, all libraries, all offered locations, all random picks", "why_tests_cant": "The category choice depends on the neighbours and on arbitrary user libraries.", "anchors": ["simulator/fiber/evolution_operators/evolution_operators.py:SwapComponent"]}
{"id": "C08", "title": "Size accounting over any evolution history", "statement": "After any history, #nodes = initial + #series − #merging removals and #edges = initial + #series + #parallel − #removals; so the number of independent loops (edges − nodes) changes only with parallel additions (+1) and non-merging removals (−1).", "quantifier": "all starting graphs, all operators and offered locations, all finite histories", "why_tests_cant": "A statement about unbounded histories.", "anchors": ["simulator/fiber/evolution_operators/evolution_operators.py"]}
{"id": "C09", "title": "Node ids and edge keys stay unique and edges never dangle", "statement": "In every graph reachable by evolution, node ids are distinct, (source,target,key) triples are distinct, every edge endpoint exists, and there are no self-loops; adding an edge never overwrites an existing parallel edge.", "quantifier": "all well-formed graphs, all operators and offered locations, all finite histories", "why_tests_cant": "Key collisions arise only for particular remove-then-add orders on parallel edges.", "anchors": ["simulator/fiber/evolution_operators/evolution_operators.py", "networkx MultiDiGraph.add_edge / contracted_nodes as used by simulator/fiber/evolution_operators/evolution_operators.py"]}
{"id": "C10", "title": "Edge-count limits of connector nodes", "statement": "The number of inputs and outputs of a connector node stays within the limit of its model, over any evolution history, unless a removal merges two connectors whose inputs (or outputs) together, not counting the removed edge, exceed the limit. Series and parallel insertions, swaps (to a connector with at least the same limit) and removals without a merge never exceed it; a merging removal exceeds it exactly when the two ends do not fit, and the code does not prevent that.", "quantifier": "all evolution histories from all designs within limits, all operators, offered locations and draws", "why_tests_cant": "The violating sequence needs several specific steps in order.", "anchors": ["simulator/fiber/evolution_operators/evolution_operators.py:AddParallelComponent.possible_evo_locations", "simulator/fiber/evolution_operators/evolution_operators.py:RemoveComponent.apply_evolution", "simulator/fiber/node_types.py:MultiPath"]}
{"id": "C11", "title": "Default mutation probabilities form the uniform distribution over legal mutations", "statement": "The lookup evolver's probability matrix has non-negative entries summing to one; the entry is positive exactly for (location, operator) pairs the operator offers, and all positive entries are equal. If no mutation is legal an error is raised instead.", "quantifier": "all graphs, all operator lists", "why_tests_cant": "Sums and supports must be right for every size of graph; index dictionaries could collide.", "anchors": ["simulator/fiber/evolver.py:ProbabilityLookupEvolver.create_graph_matrix", "simulator/fiber/evolver.py:ProbabilityMatrix"]}
{"id": "C12", "title": "Every sampled mutation is legal", "statement": "Whatever flat index the sampler draws with positive probability, it decodes to an operator and a location offered by that operator; so an evolve step never fails on an unknown location, and every graph reached is one obtained by a legal step.", "quantifier": "all graphs, all draws, all finite histories", "why_tests_cant": "Random draws: tests cannot enumerate them; row/column decoding errors show only for non-square shapes.", "anchors": ["simulator/fiber/evolver.py:ProbabilityMatrix.sample_matrix", "simulator/fiber/evolver.py:ProbabilityLookupEvolver.evolve_graph"]}
{"id": "C13", "title": "Operator-weighted evolver respects the requested operator probabilities", "statement": "With the operator-based evolver the total probability of each applicable operator is its requested weight divided by the sum of weights of applicable operators, inapplicable operators get zero, and all locations of one operator are equally likely.", "quantifier": "all graphs, all non-negative weight tables with positive applicable mass", "why_tests_cant": "Equality of marginals must hold for all location counts.", "anchors": ["simulator/fiber/evolver.py:OperatorBasedProbEvolver.create_graph_matrix"]}
{"id": "C14", "title": "Sensitivity tournament selects a single legal, least sensitive removal", "statement": "For any shuffle, the Hessian evolver's tournament gives all removal probability to one offered removal location, whose sensitivity is minimal among the k sampled (k = max(1, round(n/2))); so at least k offered locations are no less sensitive than the chosen one.", "quantifier": "all score tables, all sets of offered removals, all shuffles", "why_tests_cant": "Random shuffles and arbitrary scores.", "anchors": ["simulator/fiber/evolver.py:HessianProbabilityEvolver.hessian_tournament"]}
{"id": "C15", "title": "Generation schedule of the Hessian evolver", "statement": "For run progress g in [0,1] the operator weights are valid: at g=0 removal is never picked, at g=1 growth is never picked, removal's share of probability never decreases as g grows (same graph), and the matrix is a distribution whenever some legal mutation has positive weight. Outside [0,1] (as random_graph passes integers) negative weights can occur.", "quantifier": "all g in [0,1], all graphs", "why_tests_cant": "Continuum of values of g.", "anchors": ["simulator/fiber/evolver.py:HessianProbabilityEvolver.update_graph_matrix", "simulator/fiber/evolver.py:HessianProbabilityEvolver.random_graph"]}
{"id": "C16", "title": "Lineage records form a chain", "statement": "After each evolve step the child's parent id equals the previous current id, the current id is fresh, and latest_mutation names the applied operator; so over any number of steps the recorded ids form one unbroken chain with no repeats.", "quantifier": "all histories", "why_tests_cant": "Unbounded histories.", "anchors": ["simulator/fiber/evolver.py:ProbabilityLookupEvolver.evolve_graph", "lib/graph.py:Graph.init_graph"]}
{"id": "C17", "title": "Propagation is total on every legal system", "statement": "Propagating through an acyclic graph whose nodes return enough output states never hits a missing state, and afterwards every edge and every output node has exactly one stored state.", "quantifier": "all DAGs, all node/edge behaviours, every topological order", "why_tests_cant": "Arbitrary topologies and orders.", "anchors": ["lib/graph.py:Graph.propagate", "lib/graph.py:Graph.measure_propagator"]}
{"id": "C18", "title": "Propagation result does not depend on the order or on earlier propagations", "statement": "The stored states are the unique solution of the data-flow equations (edge state = edge model applied to the port state of its start node, node input = states of its in-edges in edge order), so they are the same for every topological order and whatever was stored before.", "quantifier": "all DAGs, all topological orders, all previous stores", "why_tests_cant": "Needs all orders and all prior states.", "anchors": ["lib/graph.py:Graph.propagate"]}
{"id": "C19", "title": "Propagation order is a correct topological order", "statement": "The propagation order lists every node exactly once, with every edge pointing forward, whenever the graph is acyclic; on a graph with a cycle an error is raised and no order is stored.", "quantifier": "all directed multigraphs", "why_tests_cant": "All graphs, including parallel edges.", "anchors": ["lib/graph.py:Graph.update_graph", "networkx topological_sort as used by lib/graph.py"]}
{"id": "C20", "title": "Reading a noisy/noiseless output leaves the global noise switch unchanged", "statement": "get_output_signal simulates with noise on, get_output_signal_pure with noise off, get_output_noise is their difference, and each leaves the process-wide noise switch exactly as it found it when it returns normally. If propagation raises, the switch is left at the forced value.", "quantifier": "all prior switch values, all systems, any sequence of calls", "why_tests_cant": "Global state under every call history.", "anchors": ["lib/graph.py:Graph.get_output_signal", "lib/graph.py:Graph.get_output_signal_pure", "lib/graph.py:Graph.get_output_noise"]}
{"id": "C21", "title": "System layout places every component left to right", "statement": "For a graph with one source from which all nodes are reachable, the layout routine terminates, gives every node exactly one row, and the row of a node is the length of the longest path from the source; so every edge goes strictly to a later row.", "quantifier": "all single-source DAGs, all set iteration orders", "why_tests_cant": "Termination for all graphs cannot be tested.", "anchors": ["lib/graph.py:Graph.optical_system_layout"]}
{"id": "C22", "title": "Parameter lists stay aligned", "statement": "Extracted parameters, bounds, owners and positions are lists of equal length in which entry i of each describes the same unlocked parameter of an unlocked component; every unlocked parameter appears exactly once and no locked one appears.", "quantifier": "all graphs, all lock patterns", "why_tests_cant": "Every combination of locks and parameter counts.", "anchors": ["lib/graph.py:Graph.extract_attributes_to_list_experimental", "lib/graph.py:Graph.extract_parameters_to_list", "lib/graph.py:Graph.get_parameter_bounds"]}
{"id": "C23", "title": "Distributing and extracting parameters are inverse", "statement": "Distributing what was just extracted changes nothing (even when components are shared); after distributing a list of the right length, extracting returns exactly that list (components not shared); locked parameters and all other attributes never change.", "quantifier": "all graphs, all parameter vectors, all lock patterns", "why_tests_cant": "All vectors and lock patterns; aliasing.", "anchors": ["lib/graph.py:Graph.distribute_parameters_from_list", "lib/graph.py:Graph.extract_parameters_to_list"]}
{"id": "C24", "title": "Sampled parameters respect their bounds", "statement": "Uniformly sampled parameters without a step size lie within [low, up] (integers in [low, up)); with a step size they are multiples of the step at most half a step outside the bounds (float).", "quantifier": "all bounds, steps and random draws", "why_tests_cant": "All random draws.", "anchors": ["lib/graph.py:uniform_sample", "lib/graph.py:Graph.sample_parameters_callable"]}
{"id": "C25", "title": "Hall of fame keeps its size and order", "statement": "Over any sequence of updates the hall of fame keeps its length, its scored entries come first in ascending score order, and empty slots only follow them.", "quantifier": "all populations, scores, similarity outcomes and update histories", "why_tests_cant": "All update histories.", "anchors": ["algorithms/topology_optimization.py:update_hof", "algorithms/topology_optimization.py:init_hof"]}
{"id": "C26", "title": "Hall of fame remembers the best ever seen, and never gets worse", "statement": "After any sequence of updates with at least one slot and one individual, the first entry's score is the minimum over all individuals ever offered; each slot's score never increases from one update to the next; each entry is a (score, graph) pair that was offered.", "quantifier": "all histories, all similarity outcomes", "why_tests_cant": "All histories; a similarity filter could discard the best.", "anchors": ["algorithms/topology_optimization.py:update_hof"]}
{"id": "C27", "title": "Hall of fame rejects near duplicates of better entries", "statement": "An individual is inserted only if it beats some entry (or fills an empty slot) and no better-placed entry is similar to it; when it is inserted, the first similar worse entry is dropped, otherwise the last one. Pairwise dissimilarity of the whole hall of fame is NOT guaranteed.", "quantifier": "all hall-of-fame states, individuals and similarity relations", "why_tests_cant": "Arbitrary non-transitive similarity relations.", "anchors": ["algorithms/topology_optimization.py:update_hof"]}
{"id": "C28", "title": "Generation selection keeps exactly the best individuals", "statement": "After a generation the surviving population is sorted by score, has n_population members (or all if fewer), and no discarded individual scores better than a kept one.", "quantifier": "all populations and sizes", "why_tests_cant": "All populations.", "anchors": ["algorithms/topology_optimization.py:topology_optimization"]}
{"id": "C29", "title": "Tournament and roulette reproduction produce the promised population", "statement": "Tournament and roulette updates return one child per current individual, each evolved from a copy of a current individual, plus the configured elite, and do not alter the parents; in a tournament on a sorted population the parent is the fittest sampled; roulette chances sum to one, are positive and favour lower (positive) scores.", "quantifier": "all populations, all draws", "why_tests_cant": "All draws.", "anchors": ["algorithms/topology_optimization.py:update_population_topology_roulette", "algorithms/topology_optimization.py:update_population_topology_tournament"]}
{"id": "C30", "title": "A run with elitism can be continued", "statement": "Every individual handed to parameter optimisation is unscored, as that stage requires. True for elitism ratio 0; false as soon as an elite individual with a score is passed on, where the run aborts with an error.", "quantifier": "all populations with scores, all elitism ratios", "why_tests_cant": "Depends on rounding of ratio times size.", "anchors": ["algorithms/topology_optimization.py:parameters_optimize_complete", "algorithms/topology_optimization.py:update_population_topology_tournament"]}
{"id": "C31", "title": "Speciation is a partition with correct counts", "statement": "After speciation every individual of the population is assigned to exactly one species, each recorded species size equals the number of its members, all species are non-empty and the sizes sum to the population size.", "quantifier": "all populations (of distinct graphs), all previous species, all distance functions with d(x,x)=0, all set orders", "why_tests_cant": "Any set iteration order and any distance function.", "anchors": ["algorithms/speciation.py:Speciation.speciate"]}
{"id": "C32", "title": "Species members are close to their representative", "statement": "After speciation every member is its species' representative or within the threshold used in this round, and representatives of different species are pairwise at least the threshold apart for a symmetric distance.", "quantifier": "all populations, distances, previous species and set orders", "why_tests_cant": "Any order and distance.", "anchors": ["algorithms/speciation.py:Speciation.speciate"]}
{"id": "C33", "title": "Speciation threshold stays usable", "statement": "The distance threshold never leaves [0.05, 0.95] after an adjusted speciation round, moves by at most 0.3 per round, in the direction that reduces the gap to the target number of species, and is unchanged when no target is set or it is met (threshold in range).", "quantifier": "all histories, targets and population sizes >= 1", "why_tests_cant": "All histories.", "anchors": ["algorithms/speciation.py:Speciation.speciate", "algorithms/speciation.py:Speciation.__init__"]}
{"id": "C34", "title": "Fitness sharing can be undone exactly", "statement": "Reversing fitness sharing after executing it with the same generation restores every score, for both minimisation and maximisation and with or without a protection half-life; unscored foreign individuals are left alone.", "quantifier": "all populations, sizes >= 1, generations, half-lives", "why_tests_cant": "All real coefficients.", "anchors": ["algorithms/speciation.py:Speciation.execute_fitness_sharing", "algorithms/speciation.py:Speciation.reverse_fitness_sharing"]}
{"id": "C35", "title": "Parameter GA never loses its best solution and reports honestly", "statement": "The parameter genetic algorithm returns a parameter vector together with exactly its score, never worse than the starting point, and the best score never worsens from one generation to the next; its population size is constant.", "quantifier": "all objective functions, starting points, rates, sizes and random choices", "why_tests_cant": "All random choices and objective functions.", "anchors": ["algorithms/parameter_optimization.py:parameters_genetic_algorithm"]}
{"id": "C36", "title": "Crossover and mutation only mix genes position-wise", "statement": "Children of crossover have the parents' length and at every position the two children carry exactly the two parents' genes; a mutant child's genes come from parent or random individual at the same position; so any position-wise constraint (such as bounds) satisfied by the inputs is inherited, and hence holds for everything the GA returns.", "quantifier": "all parents, cut points and mutation sets", "why_tests_cant": "All cut points.", "anchors": ["algorithms/parameter_optimization.py:crossover_singlepoint", "algorithms/parameter_optimization.py:crossover_doublepoint", "algorithms/parameter_optimization.py:mutation"]}
{"id": "C37", "title": "Bounded Adam never leaves the feasible box", "statement": "For any gradient behaviour, bounded Adam with at least one iteration returns a vector inside the bounds (shrunk by 1e-8 of the range); it reports num_iters iff it did not stop early, and stops early only at a check iteration. With zero iterations the input is returned unclipped.", "quantifier": "all gradients (arbitrary functions), bounds, step sizes, numbers of iterations", "why_tests_cant": "All gradient behaviours.", "anchors": ["algorithms/parameter_optimization.py:adam_bounded", "algorithms/parameter_optimization_utils.py:adam_bounded"]}
{"id": "C38", "title": "Power splitter weights are a valid power division", "statement": "A splitter with n outputs has n−1 ratios; its output weights are non-negative and sum to one for all ratios in [0,1], and with the default ratios all outputs get 1/n.", "quantifier": "all numbers of outputs, all ratio vectors", "why_tests_cant": "All sizes and ratios.", "anchors": ["simulator/fiber/node_types_subclasses/multi_path.py:VariablePowerSplitter"]}
{"id": "C39", "title": "Noise switched off means signal unchanged; noise is reproducible for one propagator", "statement": "With noise off globally or for the object, adding noise returns the signal unchanged and touches no state; with noise on, repeated calls with the same propagator use the same noise vectors, and a different propagator (or explicit resampling) triggers exactly one new sampling of every source.", "quantifier": "all call histories of adding sources, adding noise, resampling and switching", "why_tests_cant": "All call histories.", "anchors": ["simulator/fiber/assets/additive_noise.py:AdditiveNoise"]}
{"id": "C40", "title": "Filter cache is always that of the current propagator", "statement": "In every call history a filter object filters with the transfer function of the propagator passed in that call, never with a stale one.", "quantifier": "all call histories", "why_tests_cant": "All call histories.", "anchors": ["simulator/fiber/assets/filter.py:Filter"]}
{"id": "C41", "title": "Minimal save/load reproduces the system", "statement": "Rebuilding a graph from its minimal description gives a graph of the same shape (node i to node i, edges between images in the same order) with the same component classes and parameters; nicknames are unique and decode to the class name.", "quantifier": "all graphs, all component classes with dot-free names", "why_tests_cant": "All graphs; index formatting beyond three digits; parallel edges.", "anchors": ["lib/minimal_save.py:extract_minimal_graph_info", "lib/minimal_save.py:build_from_minimal_graph_info"]}
{"id": "C42", "title": "Optimisation log rows hold the right extremes", "statement": "While one algorithm logs with population size n, row r of the parameter-optimisation log holds the minimum and maximum of the scores r*n .. r*n+n-1 logged so far, and a new algorithm's rows start after those of a first algorithm that filled whole generations. With three algorithms rows can be overwritten.", "quantifier": "all score sequences, population sizes, algorithm sequences", "why_tests_cant": "All sequences.", "anchors": ["algorithms/functions.py:ParameterOptimizationLogger"]}
{"id": "C43", "title": "Sensitivity scores cover every component", "statement": "Every edge of the graph receives exactly one sensitivity score; parameter scores are non-negative and scale linearly with the Hessian; an edge without free parameters gets the default; mismatching Hessian sizes are rejected.", "quantifier": "all graphs, all Hessian matrices", "why_tests_cant": "All matrices.", "anchors": ["simulator/fiber/assets/hessian_graph_analysis.py"]}
{"id": "C44", "title": "Species distance functions", "statement": "The provided distances are symmetric, zero from a graph to itself and non-negative; label and edit distances only take values 0 and 1. The vector distance can exceed 1, contrary to the assumption made by the speciation threshold.", "quantifier": "all graphs", "why_tests_cant": "All graphs.", "anchors": ["algorithms/speciation.py:SimpleSubpopulationSchemeDist", "algorithms/speciation.py:vectorDIFF", "algorithms/speciation.py:EditDistance"]}
{"id": "C45", "title": "Setting and getting parameters by name", "statement": "A model built with named parameters has exactly those values at the named positions and defaults elsewhere; reading back a name just set returns the value set; unknown names raise an error.", "quantifier": "all parameter tables with distinct names, all name/value lists", "why_tests_cant": "All tables and update orders.", "anchors": ["lib/base_classes.py:NodeType"]}
{"id": "C46", "title": "The objective function depends only on its argument", "statement": "Calling the function built by initialize_func_grad_hess with a full-length parameter vector gives the same value and leaves the same parameters, no matter which vectors it was called with before; locked parameters never change.", "quantifier": "all graphs, lock patterns, sequences of calls and evaluators", "why_tests_cant": "The function works by side effects on shared component objects; every call history would have to be tried.", "anchors": ["lib/graph.py:Graph.function_wrapper", "lib/graph.py:Graph.distribute_parameters_from_list"]}
{"id": "C47", "title": "Crossover candidates are exactly the other members of the species, best first", "statement": "After speciate(population), get_crossover_candidates(graph, sub) for a graph of the population and any sub-population sub returns exactly the (score, candidate) pairs of sub whose candidate was assigned the same representative as graph and is not graph itself, in ascending order of score; if graph or a member of sub was not speciated the result is the empty list and no exception escapes.", "quantifier": "all speciation states, all populations and sub-populations, all graphs", "why_tests_cant": "Species partitions and sub-populations are unbounded; a test fixes one partition.", "anchors": ["algorithms/speciation.py:206-228"]}
{"id": "C48", "title": "A finished run returns the best design it evaluated", "statement": "When topology_optimization returns, the first hall-of-fame entry has the smallest score among all individuals evaluated in all its generations and is one of them; the 'best' column has one entry per generation, never rises and ends with that score; the surviving population has n_population members, each an individual of the last generation with the score its optimisation returned (also when fitness sharing was in use). One generation is refused with ZeroDivisionError. The start design is not counted: the returned design can be worse than the start.", "quantifier": "all configurations (update rule, sizes, speciation manager or none), all evolvers, optimisers, similarity outcomes, random draws and set orders", "why_tests_cant": "Quantifies over all runs of a stochastic search of unbounded length.", "anchors": ["algorithms/topology_optimization.py:23-144"]}
{"id": "C49", "title": "The random rule cannot be combined with speciation beyond the first generation", "statement": "With a speciation manager active and update rule 'random', no generation after the first completes: the reversal of fitness sharing meets unscored graphs it knows and raises TypeError.", "quantifier": "all populations, evolvers, distances and manager states", "why_tests_cant": "Negative statement about all runs.", "anchors": ["algorithms/topology_optimization.py:254-280", "algorithms/speciation.py:178-204"]}
{"id": "C50", "title": "Preferential reproduction", "statement": "The preferential rule gives every individual at least one child, unscored and new, and alters no existing graph. A child is exactly what the evolver made of a copy of its parent if it is the last child of that parent; an earlier child has been overwritten with the parent's parameters when the next one was made.", "quantifier": "all populations, evolvers and draws", "why_tests_cant": "Number of children depends on unbounded random draws.", "anchors": ["algorithms/topology_optimization.py:283-341"]}
{"id": "C51", "title": "Reproductive pressure of the preferential rule", "statement": "For positive scores a worse individual stops reproducing whenever a better one would (same draw), and the best stops exactly on draws below one half. For negative scores the order is reversed: worse individuals reproduce more. If the least score is zero, an individual with that score never stops reproducing and the update does not return.", "quantifier": "all scores and draws, all monotone roots", "why_tests_cant": "Statement about all draws and about non-termination.", "anchors": ["algorithms/topology_optimization.py:293-332"]}
{"id": "C52", "title": "Parameter optimisation returns what it leaves in the graph", "statement": "For every method of parameters_optimize and any behaviour of the outside optimisers, after a successful call the graph carries exactly the vector returned, locked parameters and everything else are as before, and the score returned is the value of the graph in that state (for PSO: if the swarm reports the value of its vector). If optimisers and random samples keep to the bounds they are given, every unlocked parameter ends within its own bounds. Unknown methods raise ModuleNotFoundError unless the graph has no unlocked parameters, in which case any method returns the value of the graph unchanged.", "quantifier": "all graphs, component states, methods, optimiser strategies, start vectors of the right length", "why_tests_cant": "Optimiser behaviour and graphs range over infinite spaces; a test sees one trace.", "anchors": ["algorithms/parameter_optimization.py:parameters_optimize", "lib/graph.py:function_wrapper", "lib/graph.py:distribute_parameters_from_list"]}
{"id": "C53", "title": "Time and frequency grid", "statement": "The time and frequency axes of a propagator have n_samples equally spaced points symmetric about zero, covering exactly the window and the bandwidth n/window, also after n_samples is set. The frequency axis is not the axis of the discrete Fourier transform that all components combine it with: its step differs from 1/(n dt) by the factor (n/(n-1))^2, and for an even number of samples every bin is paired with a frequency half a step off, so no bin has frequency zero. Assigning window_t always raises ValueError.", "quantifier": "all n >= 2, all windows, all bins", "why_tests_cant": "All grid sizes and windows; the mismatch is a statement about every bin.", "anchors": ["simulator/fiber/assets/propagator.py:14-97"]}
{"id": "C54", "title": "Fourier helpers", "statement": "fft_ and ifft_ are linear and inverse to each other for every nonzero dt, fft_shift_ and ifft_shift_ are inverse for even and odd lengths, energy is preserved up to the factor n (Parseval), and the power spectral density sums to the energy times n dt^2/df.", "quantifier": "all signals of all lengths, all dt", "why_tests_cant": "Identities over all complex vectors of every length.", "anchors": ["simulator/fiber/assets/functions.py:10-42"]}
{"id": "C55", "title": "Lossless linear components", "statement": "Dispersive fibre, delay lines and phase shifter keep the energy of every signal. Two in a row equal one with the summed parameter (so they commute), parameter zero does nothing, and the phase shifter is 2 pi periodic and only changes the global phase. With save_transforms the fibre and the phase shifter always raise NameError.", "quantifier": "all grids, all signals, all parameter values", "why_tests_cant": "Group laws over real parameters and all signals.", "anchors": ["simulator/fiber/node_types_subclasses/single_path.py:60-79", "simulator/fiber/node_types_subclasses/single_path.py:765-781", "simulator/fiber/node_types_subclasses/single_path.py:823-839", "simulator/fiber/node_types_subclasses/single_path.py:908-925"]}
{"id": "C56", "title": "Modulators", "statement": "A phase modulator, whatever its parameters and phase noise, leaves the power at every instant unchanged; two modulators on the same line act like one with the sum of the depths, and one shifted by half a period undoes the other. An intensity modulator transmits at each instant exactly the fraction 10^(-0.4) (1 + cos phi(t))/2 of the power and so never amplifies.", "quantifier": "all signals, parameters, noise vectors, instants", "why_tests_cant": "All real parameters and signals.", "anchors": ["simulator/fiber/node_types_subclasses/single_path.py:175-187", "simulator/fiber/node_types_subclasses/single_path.py:224-240"]}
{"id": "C57", "title": "Attenuator", "statement": "An attenuator multiplies the power at every instant by exactly 10^(dB/10); settings add up, zero does nothing, settings within the bounds never raise the power nor lower it by more than 60 dB, and transmission is monotone in the setting.", "quantifier": "all signals and settings", "why_tests_cant": "All real settings and signals.", "anchors": ["simulator/fiber/node_types_subclasses/single_path.py:108-117"]}
{"id": "C58", "title": "Square filter", "statement": "The transmission is symmetric in frequency, strictly between 0 and 1, at least 1/4 inside the band and at most 1/2 outside; energy never rises. Bandwidth zero, the parameter's lower bound, divides by zero.", "quantifier": "all grids, bandwidths, signals", "why_tests_cant": "All bandwidths and signals.", "anchors": ["simulator/fiber/node_types_subclasses/single_path.py:676-723"]}
{"id": "C59", "title": "Wave shaper", "statement": "The bins of a wave shaper lie in order in the middle of the frequency grid, outside them the mask is at the extinction ratio (or the outer bins are cut off symmetrically if they do not fit). Within bounds the energy falls at least by the 4.5 dB insertion loss; equal settings on all bins change only overall amplitude and phase. If the bins exceed the grid by an odd number of samples the component raises ValueError.", "quantifier": "all grids, bin counts, bin widths, settings, signals", "why_tests_cant": "Depends on the arithmetic of all grid sizes against all bin sizes.", "anchors": ["simulator/fiber/node_types_subclasses/single_path.py:244-321"]}
{"id": "C60", "title": "Programmable filter", "statement": "The Bernstein waveform stays between its least and greatest coefficient inside the band, starts at the first and ends at the last coefficient. On an even grid the filter with coefficients within bounds never transmits more than the insertion loss allows. On an odd grid whose band edge is rounded down the outermost in-band sample lies outside the polynomial's interval and can be amplified.", "quantifier": "all coefficient lists, grids, signals", "why_tests_cant": "All polynomial degrees, coefficients and grids.", "anchors": ["simulator/fiber/node_types_subclasses/single_path.py:602-672"]}
{"id": "C61", "title": "Amplifier gain and saturation", "statement": "The gain is positive and at most the nominal gain, within the band it stays within the gain flatness, and for alpha >= 1 the mean output power never exceeds P_out_max. For alpha below 1, allowed by the bounds, the output power is unbounded.", "quantifier": "all amplifier parameters, grids, input signals", "why_tests_cant": "Supremum over all inputs.", "anchors": ["simulator/fiber/node_types_subclasses/single_path.py:395-545"]}
{"id": "C64", "title": "Split-and-delay line", "statement": "The couplers and delays of the split-and-delay line never create energy for any coupling ratios, but the component then multiplies by +1 dB: with all couplers in the bar state it amplifies every signal.", "quantifier": "all coupling ratios, grids, signals", "why_tests_cant": "All ratio vectors and signals.", "anchors": ["simulator/fiber/node_types_subclasses/single_path.py:325-391"]}
{"id": "C62", "title": "Photodiode", "statement": "The photocurrent is zero in the dark, strictly increasing in optical power, at most responsivity times power, always below max_photocurrent and comes arbitrarily close to it. The energy of the output voltage is bounded for every optical input by that of the largest current through the load.", "quantifier": "all photodiode parameters, all optical inputs, all grids", "why_tests_cant": "Supremum over all inputs; the bandwidth filter mixes all samples.", "anchors": ["simulator/fiber/node_types_subclasses/outputs.py:88-134"]}
{"id": "C63", "title": "Light sources", "statement": "A continuous-wave laser has power peak_power at every instant. The gaussian and sech pulse trains are periodic with t_rep, symmetric, have peak_power at the pulse centres and never more; pulse_width is the full width at half maximum of the power of a gaussian pulse, and a sech pulse is at least that wide. The shape delta is a single impulse at the first sample. Unknown shapes raise RuntimeError. NoisySignal never exceeds peak_power. The Impulse source is 1/dt in sample ceil(n/2) and zero elsewhere.", "quantifier": "all times, parameters, grids", "why_tests_cant": "All real times and parameters.", "anchors": ["simulator/fiber/node_types_subclasses/inputs.py:18-78", "simulator/fiber/node_types_subclasses/inputs.py:85-113", "simulator/fiber/node_types_subclasses/inputs.py:120-188", "simulator/fiber/node_types_subclasses/inputs.py:200-232"]}
{"id": "C65", "title": "Filters", "statement": "A Butterworth low-pass of any order >= 1 has power transmission dc^2/(1+(f/fc)^(2 order)) at every grid frequency (half at the transition frequency) and never raises energy above dc^2 times. The exp-of-square filter has transmission in (0,1], one at the centre and one half at half its width. Negative orders, unwritten shapes and unknown names raise ValueError. On odd grids a Butterworth filter keeps real signals real; on even grids it turns constant real signals into signals that are nowhere real.", "quantifier": "all orders, frequencies, grids, signals", "why_tests_cant": "All filter orders and signals.", "anchors": ["simulator/fiber/assets/filter.py:44-175"]}
{"id": "C66", "title": "Noise formulas", "statement": "An OSNR noise source adds noise with exactly the requested optical signal-to-noise ratio in dB, whatever was drawn; absolute-power and rms sources add exactly the requested mean power or root mean square; shot noise has mean power (slope * mean amplitude + intercept) * bandwidth. Linewidth noise leaves the power at every instant unchanged. Several sources superpose, in any order. On grids with an odd number of samples every non-zero linewidth divides by the frequency zero. Noise of the scaled kinds has the spectrum of the draw shaped by the filter of the source; the phase noise of a linewidth w has the spectrum of the draw times sqrt(w/2π)·sqrt(dt)/|f| (averaged over a bin and its opposite).", "quantifier": "all signals, draws, numbers and orders of sources, all grids", "why_tests_cant": "All random draws and signals.", "anchors": ["simulator/fiber/assets/additive_noise.py:109-256"]}
{"id": "C67", "title": "Scores of the evaluators", "statement": "The l1 and l2 distances of the evaluators are non-negative, symmetric and zero exactly for equal signals; noise suppression is zero exactly when the output has the power of the true signal at every instant; the cosine similarity of non-negative signals lies in [0,1] and ignores scaling, but a signal is not most similar to itself, and the NOT-gate evaluator, whose score is minimised, prefers outputs disjoint from the target. The filter-design and time-lens scores are characterised for all outputs.", "quantifier": "all outputs and targets", "why_tests_cant": "Statements over all waveforms.", "anchors": ["simulator/fiber/evaluator_subclasses/evaluator_notgate.py:33-62", "simulator/fiber/evaluator_subclasses/evaluator_filter_design.py:24-52", "simulator/fiber/evaluator_subclasses/evaluator_noise_suppression.py:43-50", "simulator/fiber/evaluator_subclasses/evaluator_discrete_time_lens.py:23-50"]}
{"id": "C68", "title": "Waveform alignment", "statement": "PulseRepetition scores an output independently of when its pulses arrive: for a target repeating m times in the window, every delay of the output has the same score, and every delay of the target has score zero. The waveform-generation evaluator does not align: it turns the phase the wrong way, so a delayed perfect waveform is delayed further and has a positive score. The harmonic index is the bin of the repetition rate; frequencies at or above the bandwidth of the grid raise IndexError.", "quantifier": "all grids, periodic targets, outputs with the harmonic, all delays", "why_tests_cant": "All delays and waveforms; needs the shift theorem of the discrete Fourier transform.", "anchors": ["simulator/fiber/evaluator_subclasses/evaluator_pulserep.py:30-86", "simulator/fiber/evaluator_subclasses/evaluator_rfawg.py:46-97"]}
{"id": "C69", "title": "Symmetries of whole systems", "statement": "For every system whose light comes from sources and whose detectors stand at the outputs, propagated without noise: turning the phase of all sources by one angle changes no detector reading and no power on any edge (saturating amplifiers included); delaying all sources by d samples delays every stored state by d samples if there is no modulator; multiplying all source fields by c multiplies every field by c and every power-meter reading by |c|² if no component saturates (for the lasers: peak_power times r² is field times r); and with linear components only, the states for the field a f1 + b f2 are a times those for f1 plus b times those for f2.", "quantifier": "all topologies, component choices and parameters, source fields, grids, constants a, b, c, delays d", "why_tests_cant": "Whole-system statements over all graphs and all waveforms.", "anchors": ["lib/graph.py:291-326", "simulator/fiber/node_types_subclasses/single_path.py:40-925", "simulator/fiber/node_types_subclasses/multi_path.py:54-133", "simulator/fiber/node_types_subclasses/inputs.py:47-113", "simulator/fiber/node_types_subclasses/outputs.py:40-134", "simulator/fiber/node_types_subclasses/terminals.py:41-82"]}
{"id": "C70", "title": "Copying a design for saving", "statement": "Copying a design (duplicate_and_simplify_graph, used by save_hof for every design of the hall of fame) succeeds exactly if it has no feedback, builds new objects only, keeps the order of nodes, edges and ports (for every design reached by evolution), renumbers parallel edges from 0 and leaves the original untouched. The copy simulates exactly like the original (same states, same exceptions) if every splitter still has its initial ratios; otherwise the ratios are reset, and a laser on a splitter with any other ratio delivers another signal after copying. update_graph alone has the same effect, so that every parameter optimisation starts from the initial ratios. init_graph accepts a description exactly if edges join described nodes and there is no feedback. save_hof writes one copy per place, stops with AttributeError at an unfilled place, and writes nothing for any other type than 'full'.", "quantifier": "all systems, histories of evolution steps, parameter values, inputs; all descriptions; all halls of fame", "why_tests_cant": "Over all topologies and parameters; a test compares one saved file whose splitters happen to be at their defaults.", "anchors": ["lib/graph.py:34-97", "simulator/fiber/node_types_subclasses/multi_path.py:35-52", "algorithms/topology_optimization.py:572-579"]}
{"id": "C71", "title": "Energy in whole systems", "statement": "In a system fed by lasers, with splitters at the inner nodes and power meters in front of the outputs, the total energy arriving at the outputs is bounded by prices: if every node can be given a price such that no component or splitter makes a profit, the value delivered is at most the value emitted. With passive components (fibres, attenuators, modulators, delay lines, phase shifters, filters, shapers, meters: gain at most 1; an amplifier: at most its gain setting) at most the emitted energy times the product over all nodes of max(1, inputs/outputs) arrives; if no node has more inputs than outputs, no more than emitted. This bound cannot be improved: two lasers of opposite phase joined by a splitter deliver twice the energy they emit.", "quantifier": "all topologies, parameters, inputs, numbers of samples", "why_tests_cant": "A bound over all topologies; a test simulates a few systems.", "anchors": ["lib/graph.py:291-326", "simulator/fiber/node_types_subclasses/multi_path.py:54-133", "simulator/fiber/node_types_subclasses/single_path.py:40-925", "simulator/fiber/node_types_subclasses/inputs.py:47-113", "simulator/fiber/node_types_subclasses/outputs.py:40-134"]}
{"id": "C72", "title": "Evaluations in sequence", "statement": "An evaluation leaves all parameters as they were, whether it succeeds or raises, and its score depends only on the design, its parameters and the noise switch: earlier evaluations of any designs make no difference. Exceptions: the signal-to-noise evaluator leaves the noise switched on (and its score falls as the noise grows); the waveform evaluator reads stored states and so raises KeyError on a fresh design and keeps the score of old parameters. The phase-sensitivity score is minus the slope of the mean power in the phase; evolution keeps the one protected phase shifter, so it never raises RuntimeError, unless phase shifters can be drawn. The time-lens evaluator loses its score as soon as something is put in series on edge (0,1,0). The second-order evaluator scores every copy of a design 0.", "quantifier": "all designs, parameters, evaluators, sequences of evaluations, evolution histories", "why_tests_cant": "Freedom from side effects is a statement about all sequences of calls on shared state; a test evaluates one design once.", "anchors": ["simulator/fiber/evaluator_subclasses/evaluator_phase_sensitivity.py:22-111", "simulator/fiber/evaluator_subclasses/evaluator_snr.py:24-38", "simulator/fiber/evaluator_subclasses/evaluator_rfawg.py:55-60", "simulator/fiber/evaluator_subclasses/evaluator_discrete_time_lens.py:23-50", "simulator/fiber/evaluator_subclasses/evaluator_notgate.py:33-41", "lib/graph.py:125-129"]}
{"id": "C73", "title": "Whose objective function", "statement": "graph.func(x) after initialize_func_grad_hess scores that graph with its free parameters set to x, whatever copies, evolutions, initialisations and calls on other graph objects happened in between; parameters_optimize_complete therefore scores the graph it is given, leaves exactly the optimised parameters behind and changes nothing of other graphs. But functions survive copying and evolution: the function of a deep copy is that of the original (same values, same effects, the copy's own parameters never touched), evolving the copy makes no difference to it, and after evolution in place it never sets parameters of new components, ignores surplus entries and wastes entries of removed components, until it is initialised again.", "quantifier": "all graphs, parameters, numbers of graph objects, sequences of copy / evolve / initialise / change / call", "why_tests_cant": "Object identity across arbitrary sequences of operations on shared component objects; a test tries one sequence.", "anchors": ["lib/graph.py:122-141", "lib/graph.py:569-573", "algorithms/topology_optimization.py:82", "algorithms/topology_optimization.py:245", "algorithms/topology_optimization.py:540-562", "scripts/run_derivative_phase_terms.py:106-119"]}
{"id": "C74", "title": "Sensitivities in units of the imprecisions", "statement": "graph.scaled_hess(x) is the matrix of second derivatives of the score with respect to the errors of the free parameters, each error counted in units of that parameter's imprecision. It therefore does not depend on the units parameters are given in; for smooth scores it is symmetric, gives the second-order change of the score under any errors, and its diagonal sums to the mean change over errors of one imprecision up or down; parameters with imprecision zero count as insensitive. It exists and has the right size whenever the function has as many arguments as there are free parameters; otherwise ValueError (unless one of the numbers is one). lha_analysis returns each eigenvalue with its own eigenvector by increasing magnitude and warns exactly on asymmetry. But a run stores the unscaled Hessian as scaled_hess_matrix, so which component counts as least sensitive depends on units, and plot_eigenvectors draws rows instead of eigenvectors.", "quantifier": "all score functions, numbers of parameters, imprecisions, designs, units", "why_tests_cant": "Invariance under every change of units and every score function; a test evaluates one Hessian at one point.", "anchors": ["lib/graph.py:137-149", "lib/hessian.py:43-80", "algorithms/topology_optimization.py:554", "simulator/fiber/assets/hessian_graph_analysis.py:8-101"]}
{"id": "C75", "title": "Component tables and the life of a design", "statement": "With the shipped settings (or any sensible ones) the parameter table of every component class is consistent: lists equally long, names different, each variable parameter a float with a proper interval that holds its default, a step that fits the interval, a positive imprecision. Hence through the whole life of a design - assembled from new components, evolved, tuned within bounds, sampled, updated, in any order and number - its parameters and imprecisions can be extracted, every variable parameter is between its bounds, uniform sampling never fails and stays between the bounds, and no object sits in two places. Every legal evolution step succeeds: the bounds assertion never fires; components kept on edges keep their content, drawn ones are as constructed. But splitter ratios do not survive: every update_graph (after each evolution step and at the start of every parameter optimisation) sets them back to even division. And the bounds assertion compares lists lexicographically, so it would not notice a violation after the first parameter.", "quantifier": "all settings in the sensible range, all component libraries and designs, all sequences of operations, all random draws", "why_tests_cant": "Unbounded sequences of evolution, tuning and sampling on arbitrary designs; a test runs a few generations.", "anchors": ["simulator/fiber/node_types_subclasses/single_path.py", "simulator/fiber/node_types_subclasses/multi_path.py:35-52", "simulator/fiber/node_types_subclasses/inputs.py", "simulator/fiber/node_types_subclasses/outputs.py", "lib/graph.py:90-97", "simulator/fiber/evolver.py:63-80", "algorithms/topology_optimization.py:539-549"]}
{"id": "C76", "title": "Which components evolution can draw, and which can be loaded again", "statement": "After any script of imports, custom_library calls and evolver constructions: an evolver draws exactly the classes that are on offer when it is constructed (listed by the last custom_library call, or decorated with register_node_types_all in a module imported since), sources from SourceModel, sinks from SinkModel, edges from SinglePath, nodes from MultiPath; it keeps that library whatever the script does later; the order and repetition of imports do not matter; a script fails (KeyError) exactly when custom_library lists a class whose direct base is not a registered category or an evolver is constructed before all four categories exist; loading a saved design finds exactly the decorated classes by name.", "quantifier": "all scripts (lists of imports, custom_library calls and evolver constructions of any length) over any classes with unambiguous names; all designs", "why_tests_cant": "The registry is global mutable state filled by import side effects; what an evolver draws depends on the whole order of imports and calls before it. Tests import everything once, in one order.", "anchors": ["simulator/fiber/assets/decorators.py:10-30", "lib/functions.py:17-30", "lib/base_classes.py:122-128", "simulator/fiber/evolver.py:41", "lib/minimal_save.py:18-26", "lib/minimal_save.py:55-66", "algorithms/speciation.py:291-299", "config/config.py:16-17"]}
{"id": "C77", "title": "What is saved can be found again", "statement": "Over any session of InputOutput calls by any number of objects, caught exceptions included: no file or folder disappears, and a file keeps its content unless some call opens just that file. save_object succeeds exactly if no folder on the way is a file, the place is not a folder and the object pickles; save_json exactly if the folder exists already, the place is not a folder and the dictionary is JSON. After init_save_dir, save_object and any session that does not write to the file, init_load_dir with the name of the folder (identifier included) and load_object with the same name return the object; without the identifier they do not. Two save folders of one directory coincide exactly if day, four characters and name agree. A topology optimization in a fresh folder leaves exactly its files, one for each filled place of each population and hall of fame, each with its own content.", "quantifier": "all disks, all sessions of any length, all objects, names and contents; all serialisers; all runs (any number of generations, population and hall-of-fame sizes)", "why_tests_cant": "Whether an old result survives depends on all later calls of all runs on the same disk and on random identifiers; tests save one object and load it at once into a clean folder.", "anchors": ["lib/functions.py:104-125", "lib/functions.py:134-179", "lib/functions.py:181-224", "algorithms/topology_optimization.py:31", "algorithms/topology_optimization.py:68-93", "algorithms/topology_optimization.py:131-157"]}
{"id": "C78", "title": "The viewer shows the design that was saved", "statement": "A design saved by a run as its minimal description and opened in the viewer under its generation and place appears with the same components in the same order and wiring, the same parameters (split ratios included), and, simulated with the run's propagator, the same state at every node and on every edge (or the same exception); its output node is the same. The parameter table of a selection of edges lists the parameters of just these components in that order; an edge that is not there is a KeyError. Components are named by acronym and number within their class; the names differ if the acronyms do and none ends in a digit. If the file, the propagator or the evaluator is missing or unreadable, what was shown before stays.", "quantifier": "all consistent designs without feedback, all component behaviours, parameters and input states; all disks and all runs; all selections", "why_tests_cant": "The claim relates the simulation of every design before saving to that after save, load and renumbering, where order of nodes, edges and propagation could each change silently; tests compare a few saved graphs by eye.", "anchors": ["interactive/model.py:82-128", "interactive/model.py:95-107", "interactive/model.py:173-197", "interactive/controller.py:34-40", "lib/minimal_save.py:29-81", "lib/graph.py:328-329"]}
{"id": "C79", "title": "What delays and dispersion do to light in time", "statement": "For every signal and every time grid: a delay line of delay t moves the light by t*(n/(n-1))^2, counted in time steps, towards EARLIER times (up to a constant phase), whatever the delay; a fibre of length L acts on the beat of any two spectral lines, w1 and w2 away from the carrier, exactly as a delay line of 2*beta2*L*(w1+w2)/2 does (twice the group delay of a fibre with the dispersion beta2 = -22 ps^2/km that the component declares). A pulse train is reproduced by every multiple of the Talbot length 1/(2 pi |beta2| f^2) on grids with an odd number of samples; on even grids it is delayed by N(1+1/m) half periods at N half Talbot lengths. A quarter of the Talbot length doubles the repetition rate: pulses shorter than half a period come out twice as often with half the power.", "quantifier": "all sample counts n >= 2, all windows, all delays and lengths, all signals (all periodic signals for the Talbot statements, all pairs of lines and amplitudes for the beat)", "why_tests_cant": "a test looks at one pulse on one grid and one length, where a wrong direction, a factor 2 in the dispersion and the mismatch of the frequency axis are easily blamed on the set-up; the statement is about every signal, every real length and every grid", "anchors": ["simulator/fiber/node_types_subclasses/single_path.py:60-79", "simulator/fiber/node_types_subclasses/single_path.py:765-781", "simulator/fiber/assets/functions.py:22-42", "simulator/fiber/assets/propagator.py:84-95"]}
{"id": "C80", "title": "What the evaluators ask for", "statement": "The targets the evaluators build from their constructor arguments. RadioFrequencyWaveformGeneration: 'saw', 'other-saw', 'tri', 'square' are the falling ramp, rising ramp, triangle and square wave between 0 and target_amplitude, periodic with 1/target_harmonic; any other string raises NotImplementedError, an array is used as it is, an object of another type raises. With m whole periods of q >= 2 samples on the grid, a ramp or square-wave target is reachable: an output voltage equal to it gets score 0. FilterDesign: a lit output scores in [-1, 0] and -1 exactly if no light is outside the pass bands; no light raises a division by zero; the bands are 2*pi times as wide and as far apart as `width` and `fsr` say, so on a grid below 62 GHz to either side every lit design scores -1. DiscreteTimeLens: the fringes lie in [0, 2] and repeat every pi*fsr, not every fsr. PulseRepetition depends only on the magnitudes of its target and rep_t (zero raises). NoiseSuppression without a signal raises; with one the score is >= 0, and 0 exactly if the output has its power at every instant.", "quantifier": "all grids, harmonics, amplitudes, frequencies, designs, simulators and outputs", "why_tests_cant": "Reachability of a target holds for every period count and grid offset only through an argument on the Fourier coefficient of a sampled wave; a test plots a handful of targets. The factor 2*pi does not show in any score test, since every score stays in its range.", "anchors": ["simulator/fiber/evaluator_subclasses/evaluator_rfawg.py:16-53", "simulator/fiber/evaluator_subclasses/evaluator_filter_design.py:15-39", "simulator/fiber/evaluator_subclasses/evaluator_discrete_time_lens.py:15-21", "simulator/fiber/evaluator_subclasses/evaluator_pulserep.py:14-36", "simulator/fiber/evaluator_subclasses/evaluator_noise_suppression.py:14-21"]}
{"id": "C81", "title": "Which parameter values a component works with", "statement": "A component holds a reference to a list of parameter values. `propagate` of every component except a photodiode works with the values that list has at that moment, whatever happened before (assignments, writes to elements by the tuner or by name, writes through another holder of the list). A photodiode computes its voltage from the values of the last assignment of `parameters` (or of its construction), and its filter is the one of its construction, even after all parameters were assigned anew. Noise: laser, phase modulator and photodiode use the values of the last assignment (a new noise object, so new random draws), the pulsed laser those of its construction, the amplifier those of its last `propagate`; writes to elements never reach the noise. Right after construction everything agrees with the list, and writes to parameters that are not locked keep it so: no step of a tuning run works with other values than the ones just set. A list passed to a constructor or to the setter is kept, not copied: two components built from one list are tuned together, and the list of the caller changes. Components built from defaults or by name, and copies, have a list of their own, and no write to one shows in another as long as that list is handed to nobody. Building by name gives the named values and defaults elsewhere; an unknown name raises ValueError. Phase noise points given without parameters are dropped; given with a list they are written into the list of the caller.", "quantifier": "all component classes, lists, default values, and histories of constructions, assignments, writes, propagations and copies", "why_tests_cant": "Staleness and sharing show only after particular orders of calls on particular classes; a test fixes one order, and every single call looks right on its own.", "anchors": ["lib/base_classes.py:15-97", "lib/graph.py:569-573", "simulator/fiber/node_types_subclasses/inputs.py:41-44", "simulator/fiber/node_types_subclasses/inputs.py:103-117", "simulator/fiber/node_types_subclasses/outputs.py:112-150", "simulator/fiber/node_types_subclasses/single_path.py:130-190", "simulator/fiber/node_types_subclasses/single_path.py:444-517"]}
{"id": "C82", "title": "Noise of the amplifier", "statement": "The noise an OpticalAmplifier adds to what propagate returns has in every frequency bin the phase of the drawn number and the energy h·ν/2·F·G·dt (times the drawn number's energy over its mean), F being the noise figure as a ratio and G the gain this very signal met. It is the last propagate call that decides, whatever happened before; get_ASE_filter before any propagate raises TypeError. A larger noise figure, a larger P_out_max (alpha >= 0) and a larger small-signal gain (alpha <= 1) make the noise larger at every frequency and in total, for every signal and draw; for alpha = 1.5, allowed by the bounds, more small-signal gain can mean less gain and less noise. The total power added is the average of expected_power_dist over the bins rather than its sum. On grids finer than half a period of the light the noise is nan.", "quantifier": "all amplifier parameters, propagators, signals, drawn noise vectors and histories of calls", "why_tests_cant": "The tests of the project only plot the noise for three or four parameter values and leave the comparison to the eye; the claims are inequalities over all signals and draws, and the level of the noise is a formula over all grids.", "anchors": ["simulator/fiber/node_types_subclasses/single_path.py:454-517", "simulator/fiber/assets/additive_noise.py:141-144", "testing/test_noise_verification.py:461-509"]}
{"id": "C83", "title": "Tuning utilities", "statement": "tuning_genetic_algorithm with at least one generation and tuning_adam_gradient_descent with at least one batch never return, whatever graph, evaluator, settings and random numbers: when the noise is not to be drawn anew, the former raises TypeError after scoring a whole generation (when nothing raised before), the latter KeyError at its first gradient, before any parameter of the graph is touched. When it is (the default of both), the exception of resample_all_noise (C106) comes first: after the initial population of the genetic algorithm, before the first step of the gradient descent, and before any evaluation with resample_per_individual. The graph then holds the parameters of the individual scored last and AdditiveNoise.simulate_with_noise the value of the argument noise, in every outcome. A graph with at most one free parameter is refused (ValueError) by the mutation. Without generations the population comes back in the order drawn, not sorted. With the two wrong names of the source mended: populations keep their size, are sorted, every member carries a score the evaluator gave for it during the run, constraints met by all random vectors are inherited, no evaluation was better than the first member, the minima in the log never rise and the last is that of the population; gradient descent returns individuals inside the bounds. Stored scores are not renewed when the noise is drawn anew. A mutation takes at least one gene of the random vector and leaves at least one of the parent.", "quantifier": "all graphs (free parameter vectors of any length), evaluators (also noisy or raising), populations, numbers of generations and batches, rates, random streams", "why_tests_cant": "The project has no passing test of these utilities; that no argument whatsoever makes them return, and what they would guarantee otherwise, are statements about all runs.", "anchors": ["algorithms/parameter_optimization_utils.py:42-234", "algorithms/parameter_optimization_utils.py:332-433", "algorithms/functions.py:18-32", "lib/hessian.py:82-96", "lib/graph.py:525-550"]}
{"id": "C84", "title": "Linewidths from measured phase noise", "statement": "get_estimated_FWHM_linewidth_from_points turns measured phase noise (offset, dBc/Hz) into the linewidth of a Lorentzian line. Points that lie on the phase noise of a line of width w give back w, whatever and however many they are. In general the estimate is the mean of the linewidths that the points stand for one by one, weighted by the inverse fourth power of the offset: it lies between the smallest and the largest of them, does not depend on the order of the points or the signs of the offsets, grows tenfold with 10 dB more noise, and is decided by the point closest to the carrier. The phase noise that a component of this linewidth then applies has, in the mean over all that may be drawn, the spectral density w/(2 pi f^2) that was fitted, up to n/(n-1) and the half step of the frequency grid.", "quantifier": "all lists of points, all least squares fits, all even grids, all linewidths, all white noise (in particular independent standard normal numbers)", "why_tests_cant": "The recovery holds for arbitrarily many arbitrary offsets, the weights are not visible in any output, and the spectrum of one draw is random: only its mean over the distribution is determined.", "anchors": ["simulator/fiber/assets/additive_noise.py:19-20", "simulator/fiber/assets/additive_noise.py:230-239", "simulator/fiber/assets/additive_noise.py:270-307", "simulator/fiber/node_types_subclasses/single_path.py:130-137"]}
{"id": "C85", "title": "Coherence of light with a linewidth", "statement": "Light to which a source applies the noise of a FWHM linewidth w has, in the mean over all that may be drawn, the coherence of a Lorentzian line of that width: the fields at two instants T apart are correlated by exp(-pi w T) up to the share of T in the time window and up to one time step; the exponent is proportional to w, so a wider line is less coherent at every distance, and the mean power at each instant is unchanged. The phase noise is stationary, but periodic with the time window: the last instant is as coherent with the first as a neighbour.", "quantifier": "all even grids, linewidths, pairs of instants, input signals; mean over independent standard normal numbers (correlations: all white noise)", "why_tests_cant": "Coherence is an average over an infinite set of draws; a run sees one draw, and an estimate from samples cannot separate the bound from a slightly wrong linewidth.", "anchors": ["simulator/fiber/assets/additive_noise.py:225-239", "simulator/fiber/assets/additive_noise.py:260-268"]}
{"id": "C86", "title": "What the viewer draws and plots", "statement": "The viewer places the nodes of a design in the square from -1 to 1 without changing what is left or right, above or below, and draws one curve for each edge, from its node on the left to the one on the right, between the two and without turning back; parallel edges are drawn as curves which share no point but the first. Whatever designs were loaded and edges selected before, after selecting edges of the design shown the table holds the rows of just these edges, and exactly their lines are visible in the plots; each edge has one line in either plot of the light and one for each transform its component recorded. A cell of the Hessian's heat map shows the entry of the two parameters it names, a bar of the eigenvector plot the component of the parameter it names.", "quantifier": "all graphs, layouts and edges; all histories of loading (successful or not) and selecting; all matrices", "why_tests_cant": "A test drives a window through a few clicks; what is visible depends on the whole history of selections and loads, and the curves on arbitrary layouts and numbers of parallel edges.", "anchors": ["interactive/model.py:148-256", "interactive/view.py:194-336", "interactive/controller.py:27-89"]}
{"id": "C87", "title": "Update rules by name and the schemes of species they bring along", "statement": "Asking for an update rule by name runs the base rule and sets up the scheme of species the name stands for; other names are refused. A run with a scheme from a fresh design ends with every individual, and every representative of a species, carrying the scheme's descriptor, and is speciated whatever the process did before. Descriptors are only inherited, so a subpopulation that has died out never returns. Under the simple scheme no distance raises and the species are exactly the subpopulations, whatever the adaptive threshold has become. Where this breaks down: a design that carries a descriptor already is not set up again, and a manager left over from an earlier run in the process raises on graphs of another scheme or of none.", "quantifier": "all names; all populations, schemes, targets, base rules and numbers of generations; all random draws, evolutions and optimisers that leave descriptors alone; all reachable states of the manager", "why_tests_cant": "Marks and manager are global state handed on through every copy of every generation; whether some path loses them, or a run after another one in the same process still works, depends on whole histories of runs.", "anchors": ["algorithms/topology_optimization.py:21-56", "algorithms/topology_optimization.py:433-536", "algorithms/speciation.py:60-142", "algorithms/speciation.py:236-252", "algorithms/speciation.py:268-283"]}
{"id": "C88", "title": "Interferometers: what two or more arms between two splitters do", "statement": "In a design that splits light into arms and joins them again, the joining component receives the sum of the arms with the weights and the turns of the two splitters. Between two arms that only turn phases the power that comes out is P·(1/2 + √(r(1−r))·cos Δ) with r the splitting ratio of the first splitter and Δ the difference of the phases; at r = 1/2 it is P·cos²(Δ/2); never more than came in. Arms with different delays make a comb filter with period 1/Δτ. The score of the phase sensitivity evaluator is −P√(r(1−r))·|sin(φ−ψ)|, of the second order evaluator a closed form in the same quantities. Not what a user expects: three or more equal arms at the default even split let no light through at all.", "quantifier": "all designs with such a pair of splitters (any number of arms, any components in front and behind), all signals, all splitting ratios, all phases and delays, all sample counts and windows", "why_tests_cant": "Interference is a real function of continuous parameters through a whole graph of components; a test samples a few phases, while dark outputs and the range of the scores are statements about all of them and about any number of arms.", "anchors": ["simulator/fiber/node_types_subclasses/multi_path.py:54-76", "lib/graph.py:291-326", "simulator/fiber/node_types_subclasses/single_path.py:908-925", "simulator/fiber/node_types_subclasses/single_path.py:765-781", "simulator/fiber/evaluator_subclasses/evaluator_phase_sensitivity.py:22-111"]}
{"id": "C89", "title": "What a component records of itself is what it does to the light", "statement": "`propagate(…, save_transforms=True)` leaves in each component's `transform` a description for plotting. Recording never changes the light, neither of a component nor of a whole system. The record of a phase modulator is the phase it adds and that of an intensity modulator the share of power it lets through, sample by sample; the records of the wave shaper, the programmable filter and the square filter are the amplitude and phase applied at each place of the frequency axis (losses are not included). A delay line records a single one at the sample nearest to minus its delay, which is the power it delivers for a pulse in the middle of the window; the split-and-delay line the coupling ratios at the samples nearest to its delays. A component used without recording has no record afterwards. Not what a user expects: fibres and phase shifters cannot be recorded, amplifiers record half their gain in decibels (one place off on an odd number of samples) and never forget, stages of the split-and-delay line hide each other, and delays beyond half the window are all recorded at its first sample.", "quantifier": "all components with all parameters, all signals, sample counts and windows, all designs and topological orders, all histories of calls", "why_tests_cant": "A plot looks plausible whether or not it is the response applied; equality of a recorded array with the action of a component is a statement about all inputs, parameters and grids, and staleness one about all call histories.", "anchors": ["simulator/fiber/node_types_subclasses/single_path.py:60-79", "simulator/fiber/node_types_subclasses/single_path.py:175-187", "simulator/fiber/node_types_subclasses/single_path.py:224-240", "simulator/fiber/node_types_subclasses/single_path.py:280-321", "simulator/fiber/node_types_subclasses/single_path.py:356-391", "simulator/fiber/node_types_subclasses/single_path.py:454-468", "simulator/fiber/node_types_subclasses/single_path.py:646-719", "simulator/fiber/node_types_subclasses/single_path.py:765-839", "simulator/fiber/node_types_subclasses/single_path.py:908-925", "lib/base_classes.py:33"]}
{"id": "C90", "title": "Units of axes in plots, comparison plots, states along a design", "statement": "`scale_units` multiplies the data of an axis so that the largest absolute value of the first curve lies between 1 and 1000, and the label gets the SI prefix that makes every value of every curve times its factor the value plotted; the other axis is untouched. Data beyond `1e21`, below `1e-21`, all zero or empty raise. `compare` of the evaluators draws after a propagation the power of the output state over time and the target, in matching units. Not what a user expects: scaling an axis twice leaves the scaled values with a label that ends in the bare unit; the second figure of `compare` has bin numbers on an axis labelled in hertz; the curve drawn is the square of what is scored; `compare` raises for the noise-suppression evaluator; `inspect_state` raises for every design with an edge.", "quantifier": "all data, numbers of curves, labels and units; all sample counts and windows in the stated range, all designs and propagated states, all targets", "why_tests_cant": "Whether a label states the right power of ten for every data set is a statement about all real arrays; tests of plots look at whether a figure appears.", "anchors": ["lib/functions.py:246-299", "simulator/fiber/evaluator_subclasses/evaluator_pulserep.py:89-108", "simulator/fiber/evaluator_subclasses/evaluator_rfawg.py:99-118", "simulator/fiber/evaluator_subclasses/evaluator_noise_suppression.py:89-108", "lib/graph.py:580-598"]}
{"id": "C91", "title": "The objective depends smoothly on the parameters; gradients and Hessians mean what the optimizers take them to mean", "statement": "At parameters inside the ranges of the components (splitter ratios strictly between 0 and 1, filters of nonzero bandwidth), with noise off, every state of a system is a smooth function of all parameters together, and so is the score `graph.func` of the shipped evaluators where the measured light is not dark. Consequently the system runs at all nearby parameters; `graph.grad` is the true slope in every direction and a small enough step against it lowers the score whenever it is not zero; `graph.hess` is symmetric; best parameters in a box exist, have zero slope in free directions, point outward at active bounds, and have nonnegative curvature; a parameter the score does not depend on has zero gradient, zero row and column in the Hessian and sensitivity 0. Not what a user expects: at splitter ratio 0 or 1 – the bounds the code sets and clips to – the output has no derivative, and the filter-design score has a kink wherever a spectral line of the output is dark.", "quantifier": "all acyclic systems of the listed components, all numbers of parameters and samples, all smooth dependences of settings on parameters, all directions and boxes", "why_tests_cant": "Differentiability and first/second order conditions are statements about limits at every parameter point of every system; a test compares finitely many difference quotients.", "anchors": ["lib/graph.py:122-150", "algorithms/parameter_optimization.py:21-130", "algorithms/parameter_optimization.py:260-316", "simulator/fiber/node_types_subclasses/multi_path.py:21-80", "simulator/fiber/evaluator_subclasses/evaluator_filter_design.py:24-46"]}
{"id": "C92", "title": "Light only runs forward: what a place shows depends only on what is upstream", "statement": "The state on an edge or at an output node is determined by the components and connections upstream of it: two systems that agree there show the same, whatever the rest looks like. So changing, swapping, inserting, adding in parallel or removing components leaves every state alone that is not at or downstream of the place of the change, and a parameter that enters only components not upstream of where the evaluator reads has zero gradient, zero Hessian row and column and sensitivity 0. Not what a user expects: inserting a component into one of several arms behind a splitter moves that arm to the last output port, so that the light in the *other* arms changes – with two arms of shares 1-r and r the untouched arm gets 1-r instead of r.", "quantifier": "all acyclic systems, all component behaviours with or without noise, all places of change, all launched states, all parameters", "why_tests_cant": "Independence from everything downstream quantifies over all pairs of systems that agree upstream; a test compares one pair.", "anchors": ["lib/graph.py:291-345", "simulator/fiber/evolution_operators/evolution_operators.py:21-244", "lib/graph.py:122-150"]}
{"id": "C93", "title": "Evolution can go back: changes can be undone, designs taken down, and chains rebuilt", "statement": "A component inserted in series can be removed again at the place it was inserted and the design before comes back (same components and connections; if it was inserted before a node, that node now has the inserted node's label); a swap can be swapped back; a component added in parallel can be removed again and gives back exactly the design before if and only if its two ends were already connected by a path – otherwise the removal merges the two ends, so the addition of a cross-link between two arms cannot be undone. From every design with one laser on one source, one detector on one sink and nothing protected in between, removing components in any order ends, after one removal for each inner component, in source–laser–connector–detector–sink, and until then a removal is on offer; the connector kept can be any one of the design's. From there series insertions build any chain of library components, so evolution reaches every chain from every such design.", "quantifier": "all designs, all libraries, all places on offer, all orders of removals, all chains of any length", "why_tests_cant": "Whether the search space is connected is a statement about the existence of histories of any length between any two designs; a test follows single histories.", "anchors": ["simulator/fiber/evolution_operators/evolution_operators.py:21-244", "lib/graph.py:122-150"]}
{"id": "C94", "title": "Designs no output can tell apart: exchanging, merging and dropping components", "statement": "Two components in a row may be replaced by any others that together do the same to the light reaching them: the system still runs and every state except the one in between, hence every score, stays the same. So components that are linear and do the same at all times (fibres, delay lines, shapers, filters, attenuators, phase shifters) can change places, as can two modulators, an attenuator or phase shifter and a modulator, and a phase shifter and an amplifier; of two lengths, delays, attenuations, phases or modulation depths in a row only the sum matters; a phase shifter or phase modulator right in front of a detector does nothing. Not what a user expects: a modulator and a delay line change places only if the modulation repeats with the delay; an attenuator in front of an amplifier gives more light than behind it; and the Hessian analysis that is meant to find components without influence gives two components of which one would do the same slope, rows, columns and sensitivity, so the redundant one looks as important as the other.", "quantifier": "all acyclic systems, all components, all places in a row, all launched states, all evaluators, all parameters and numbers of samples", "why_tests_cant": "That two designs give the same score for every input, every rest of the system and every parameter setting is a statement about infinitely many systems; a test compares two runs up to rounding.", "anchors": ["lib/graph.py:291-326", "simulator/fiber/node_types_subclasses/single_path.py", "lib/hessian.py:43-61", "scripts/build_redundant_system.py"]}
{"id": "C95", "title": "Parts of a design that get no light", "statement": "Behind an output of a power splitter that is shut (its ratio at a bound, or one before it at 0) everything that is fed only from there is dark: every edge carries nothing, amplifiers included, and output nodes show nothing. Where no light enters, be it because of a shut output or because light cancels, components may be replaced by any that make no light and do not raise: the system still runs and every stored state stays the same. So a parameter in a shut part has slope 0, a zero row and column in the Hessian and sensitivity 0, without any assumption of smoothness; a parameter where light merely cancels has slope and own curvature 0. Not what a user expects: a shut arm with sensitivity 0 cannot be taken out without effect. The splitter divides by the number of its outputs, so removing the dark one of two arms doubles the power in the other.", "quantifier": "all acyclic systems, all components in and outside the dark part, all splitter ratios, all launched states, evaluators, parameters and numbers of samples", "why_tests_cant": "That nothing in a dark part matters quantifies over all components that could stand there, all sizes of the part and all parameter values; a test tries a few.", "anchors": ["simulator/fiber/node_types_subclasses/multi_path.py:35-76", "lib/graph.py:291-326", "lib/hessian.py:43-61", "scripts/hessian_observations.py"]}
{"id": "C96", "title": "Which evolution histories can happen, and how likely they are", "statement": "A run of the uniform evolver takes certain steps to a certain design exactly if they form an evolution history each step of which it offers; the chance of its choices is then the product over the steps of one over the number of mutations offered, never zero, and a design with N nodes and E components offers at most 5E + N + N(N-1)/2. Every legal step of an operator in use is offered, except parallel components between nodes without a path: of these one direction is offered and the other never, which one being decided by networkx's sort. Any chain of library components between the two ends of a design is found with a positive chance. With positive operator weights the weighted evolver leaves no offered step out. The Hessian-based evolver does: whenever it may remove a component, at least half of the removable components score as high or higher, so from three removable components on the highest-scoring one is never removed, whatever the shuffle.", "quantifier": "all valid designs, libraries, operator lists, histories of any length, all drawn indices, shuffles, scores and weights", "why_tests_cant": "Seeded runs show some histories. That a history cannot happen, or can with a certain chance, quantifies over all draws of all steps.", "anchors": ["simulator/fiber/evolver.py:44-105", "simulator/fiber/evolver.py:162-171", "simulator/fiber/evolver.py:292-346", "simulator/fiber/evolution_operators/evolution_operators.py:105-119"]}
{"id": "C97", "title": "Growing in series never has to lose anything, where the new component can be switched off", "statement": "Inserting with AddSeriesComponent a component that hands on its input, on an edge that is the last output of its start and the last input of its end (in an unbranched design: on any edge, and it stays unbranched), changes no stored state but that of the split edge: every other edge, every output node and every score read there is as before, with noise on or off. Fibre, attenuator, both delay lines, waveguide and phase shifter have such a setting within their bounds, so after any number of such insertions every score the first design has at an allowed setting is still a score of the grown one, and its best possible score is not worse. Intensity modulator, square filter, amplifier, wave shaper, programmable filter and phase modulator have none. On the first of two unequal arms no insertion, even of a component that does nothing, leaves the other arm as it was.", "quantifier": "all designs, edges, component behaviours, signals, grids, evaluators, settings within bounds, any number of insertions", "why_tests_cant": "A test compares scores of a few designs; that growth cannot make the reachable optimum worse quantifies over all designs and all parameter values, and that a class has no neutral setting over all of its settings.", "anchors": ["simulator/fiber/evolution_operators/evolution_operators.py:34-76", "lib/graph.py:158-164", "lib/graph.py:291-326", "simulator/fiber/node_types_subclasses/single_path.py:20-925", "simulator/fiber/node_types_subclasses/multi_path.py:35-76"]}
{"id": "C98", "title": "A design runs at every setting within its bounds, and evolution keeps it so", "statement": "With values within bounds for every parameter that may be varied, a component raises exactly at three known traps whatever the light: a square filter at bandwidth 0, a programmable filter on a very short time window, a wave shaper whose bins exceed the grid by an odd number of samples. An acyclic design of such components propagates without raising exactly when no edge is trapped and each node has as many outputs as its class can serve (a power splitter at least one edge on each side, a terminal no more outputs than inputs). Designs with terminals of at most one output at the ends and splitters inside stay so under every history of evolution operators, so they run at every later setting within bounds, with a state on every edge and every output. At every moment of an evolution and optimisation (construction, evolve, sampling, writing back optimised values, training) the values the objects hold are within bounds and the design runs.", "quantifier": "all designs, histories of operators, settings within bounds, input signals, grids of at least 3 samples, noise on or off", "why_tests_cant": "A test evaluates some designs at some settings; that no reachable design raises at any allowed setting is about all histories, all real parameter values and all signals, and that the traps are the only ones needs the converse as well.", "anchors": ["simulator/fiber/graph.py:293-331", "simulator/fiber/graph.py:482-486", "simulator/fiber/node_types_subclasses/single_path.py:280-322", "simulator/fiber/node_types_subclasses/single_path.py:646-724", "simulator/fiber/node_types_subclasses/multi_path.py:35-76", "simulator/fiber/node_types_subclasses/terminals.py:6-81", "simulator/fiber/evolution_operators/evolution_operators.py:34-244"]}
{"id": "C99", "title": "The scores of a design form a closed interval: a best setting exists, and growth never makes it worse", "statement": "For a design that runs at every allowed setting (acyclic, ends and splitters as their classes need, no component with a trap within its bounds), any grid of at least three samples, any input, and any evaluator that is continuous at the states it can be handed: graph.func is defined at every allowed setting and continuous up to and including the bounds, so that settings tending to an allowed setting have scores tending to its score, even at splitting ratios 0 and 1 where no derivative exists. The scores reachable by allowed settings are exactly the numbers of a closed interval: a best and a worst setting exist and everything in between is reached. Growing the design in series with components that can be switched off never makes the best score worse. A square filter is excluded for a reason: its bounds contain bandwidth 0, where it raises, and every other bandwidth has a narrower one that passes less, so a minimum need not exist.", "quantifier": "all designs, allowed settings and sequences of them, input signals, grids, continuous evaluators, noise hooks on or off, any number of insertions", "why_tests_cant": "Existence of an optimum over a continuum of settings and attainment of every intermediate score cannot be observed by evaluating finitely many settings; continuity at the bounds is a limit statement.", "anchors": ["lib/graph.py:122-142", "lib/graph.py:291-326", "simulator/fiber/node_types_subclasses/single_path.py:20-925", "simulator/fiber/node_types_subclasses/multi_path.py:35-130", "algorithms/parameter_optimization.py"]}
{"id": "C100", "title": "random_graph makes exactly the designs evolution can reach; with the Hessian evolver it breaks off after two steps", "statement": "From a design in its life (assembled from new components, evolved, tuned, sampled) that has a node between its ends, random_graph with the uniform evolver returns whatever the random numbers: exactly n_evolutions mutations have been made, each by one of the evolver's operators at a location it offers; the result is again such a design with a node between its ends; it carries the last two ids as its own and its parent's; and it is the caller's design object that has been changed. Conversely every evolution history out of new components by these operators comes about for some random numbers. Whether a design has a node between its ends is settled when it is assembled: no history makes or loses the first. A design whose source is connected straight to the sink can therefore never grow, only its edge components can be exchanged, and random_graph raises RuntimeWarning if none can. With the Hessian evolver random_graph hands the number of the evolution on as the fraction of the run: asked for three or more (ten by default) it raises after at most two mutations, which stay in the caller's design, except where after two mutations nothing can be removed or exchanged. An evolution refused by the bounds assertion is not taken back: the change stays, the ids stay those from before, and the loop goes on.", "quantifier": "all designs in their life, numbers of evolutions, random draws, libraries, operator sets, scores and shuffles", "why_tests_cant": "The number of evolutions and the random draws are unbounded; that every reachable design can come about, and that a bare design never grows, are statements about all histories.", "anchors": ["simulator/fiber/evolver.py:44-88", "simulator/fiber/evolver.py:113-128", "simulator/fiber/evolver.py:279-304", "simulator/fiber/evolver.py:376-390", "simulator/fiber/evolution_operators/evolution_operators.py"]}
{"id": "C101", "title": "Evolvers draw from the operators registered when they were made, and their weights follow the schedule of the generation given last", "statement": "For every program that declares operator classes, makes evolvers and calls them, in any order and number, also going on after exceptions: an evolver's operators are those registered when it was made, one per class name, in the order of first registration, each the latest class of its name, and stay so. An operator-based evolver made without weights gives all its operators equal weights adding up to 1, always. A Hessian evolver can be made exactly if only the four names it knows are registered; while no further operator is declared each of its operators has the weight its name has for the generation given last, or as constructed; with the repository's operators these are the weights of C15. If another name is registered, its constructor and every call with a generation raise KeyError. If a class of the same name is registered again, the operators existing evolvers draw from keep the weight they had for ever. crossover_graphs raises RuntimeError if no registered operator accepts the pair, else returns what one of the accepting ones made, each of which can be chosen; nothing in the repository registers one.", "quantifier": "all sequences of class statements, constructions and calls; all generations, weights, graphs and random picks", "why_tests_cant": "The weights are state shared by all calls of one evolver and the registries are global: the claims are about every order of declarations, constructions and calls.", "anchors": ["config/config.py:10-14", "lib/decorators.py:11-49", "simulator/fiber/evolver.py:35-42", "simulator/fiber/evolver.py:222-245", "simulator/fiber/evolver.py:257-290", "simulator/fiber/evolver.py:759-781", "simulator/fiber/evolution_operators/evolution_operators.py:19-176"]}
{"id": "C102", "title": "Everything a topology run evaluates descends from the start, one generation at a time, and the run finishes when mutation and optimisation do", "statement": "For every finished run of topology_optimization, by any update rule, with or without species: what is evaluated in the first generation was made from copies of the optimised start; what is evaluated in a later one was made from n_population survivors of the generation before, which without species are the best of it. Each design evaluated in generation k therefore has a chain of k+2 ancestors from the optimised start, evaluated in successive generations, each made from the one before by the rule's way of mutating and then optimised. The hall of fame holds only designs evaluated in some generation, with the score they had there. Whatever the optimised start has and mutation and optimisation keep is true of every design evaluated, of the hall of fame and of the survivors. With an elitism ratio that rounds to nobody, a number of generations other than one and a rule in working order, a run from a design for which mutation and optimisation never raise, nor for its descendants, returns.", "quantifier": "all populations, generations, rules, random numbers, mutation and optimisation functions, similarity functions and speciation settings", "why_tests_cant": "Ancestry is an invariant over all generations of a run with arbitrary random choices; a test sees one run.", "anchors": ["algorithms/topology_optimization.py:23-155", "algorithms/topology_optimization.py:254-432", "algorithms/topology_optimization.py:539-564"]}
{"id": "C103", "title": "A run on designs evaluates only legal designs with parameters within bounds, reached by as many mutations as generations, and records true scores", "statement": "For topology_optimization on designs with evolve_graph as evolver and parameters_optimize_complete as optimiser, random numbers within range and optimisers that keep to their bounds: parameters_optimize_complete leaves the graph and its lineage alone, returns a design with all values within bounds together with its evaluation (not for PSO), and never raises for a known method. For every rule but the preferential one and with or without species, every design evaluated in generation k is well-formed, without cycles, with its components in place and all variable parameters within bounds; it is reached from the start by exactly k+1 offered mutations (random rule: at least); it is recorded with its true score; its parent id is the id of a design of the generation before (of the start for the first; not for the random rule); and it can be propagated if no component is trapped (C98). The same holds of the hall of fame. With the uniform evolver, tournaments of some size or the roulette with positive evaluations, no elitism and not exactly one generation, the run returns from every design with a node between its ends. With the preferential rule the bounds are not kept: a run exists that evaluates a design with a parameter above its upper bound.", "quantifier": "all start designs, libraries, settings, evaluators, optimisation methods, random numbers, population sizes, numbers of generations, speciation settings", "why_tests_cant": "It puts together evolution, parameter handling, optimisation and selection over all generations and all random choices; a finite number of runs shows nothing about the others.", "anchors": ["algorithms/topology_optimization.py:23-155", "algorithms/topology_optimization.py:254-432", "algorithms/topology_optimization.py:539-564", "algorithms/parameter_optimization.py:21-257", "simulator/fiber/evolver.py:44-75", "lib/graph.py:477-481"]}
{"id": "C104", "title": "In a run with the Hessian evolver the first generation never removes and the last never inserts, which bounds sizes and can lose the run", "statement": "For topology_optimization with tournaments or the roulette and no elite, every generation makes n_population calls of evolve_graph, all handed generation / (n_generations - 1), and n_population parameter optimisations; each generation evaluates n_population designs, and every design of generation k comes from such a call on the optimised start (k = 0) or on a design evaluated in generation k - 1. With HessianProbabilityEvolver every design evaluated was therefore made from the start or a design of the generation before by one offered mutation, which it records, along with its parent; the mutation is no removal in the first generation and no insertion in the last. A design of generation k has at most k components fewer and at most min(k + 1, n_generations - 1) components more than the start; the first generation is never smaller than the start, the last never larger than what it was made from. Such a run returns, whatever the random numbers, from every design with an unprotected light source, if the library has two light sources, new components are unprotected, the swap operator is used and scoring does not raise. In the last generation the evolver raises on every design that offers neither removal nor exchange, and there is a run within all assumptions that is lost in this way.", "quantifier": "all start designs, libraries, settings, scores, shuffles, evaluators, optimisation methods, random numbers, population sizes, numbers of generations, speciation settings", "why_tests_cant": "Which mutations are possible depends on the position of the call in the run and on designs that depend on all earlier random choices; a run that is lost in its last generation may not show up in any number of trials.", "anchors": ["algorithms/topology_optimization.py:83-155", "algorithms/topology_optimization.py:356-421", "simulator/fiber/evolver.py:255-340"]}
{"id": "C105", "title": "The benchmark functions have their only minimum at the reference point, with four exceptions", "statement": "For booth, matyas, ackley, easom, rastrigin, rosenbrock, beale, goldstein_price and levi13, TestFunction(name) returns an object whose xP is the only minimum of its function in the whole plane, whose zP is the value there (3 for goldstein_price, otherwise 0), whose Z holds the function on the mesh and nowhere falls below zP. The mesh runs from end to end of both ranges. Exceptions: the reference point of the sphere function (0.1, 0.1) is not its minimum; TestFunction raises ValueError for eggholder and gaussian, which return no reference point, and the one written down for the gaussian is its only maximum; the range of beale's y has three entries, so its mesh ends at 4. Ackley's function has no derivative at its minimum.", "quantifier": "all points of the plane, all points of the mesh, all functions of the file", "why_tests_cant": "That nothing in the plane is below the reference value is a statement about all real points; sampling a mesh cannot show it.", "anchors": ["testing/test_functions.py:9-167", "testing/test_function_analysis.py:33"]}
{"id": "C106", "title": "Drawing all noise of a graph anew fails on every graph, and what it would do", "statement": "Graph.resample_all_noise(seed) raises AttributeError on every graph with an edge, before any noise is drawn, because _propagate_on_edges is assigned nowhere; numpy's generator has been seeded by then. Hence tuning_genetic_algorithm and tuning_adam_gradient_descent end in AttributeError with their default settings. On graphs that have the attribute: the switch, all noise objects outside the graph, and propagator, seed, on/off state and kind of the sources of all objects never change; with noise switched off only numpy is seeded; with noise on it returns exactly if every object of the graph has been used with a propagator, and otherwise raises ValueError, leaving the objects that come after the unused one with their old noise; on return the vectors of all sources are consecutive draws from one random generator, in the order nodes, edges, sources; with a seed the result depends only on seed, propagators and sources.", "quantifier": "all graphs, noise objects (also shared ones), noise formulas, random generators, seeds and earlier histories", "why_tests_cant": "Independence of all earlier random numbers and noise, and failure on every graph, are statements about all states; a test fixes one graph and one state of numpy.", "anchors": ["lib/graph.py:243-261", "simulator/fiber/graph.py:244-263", "simulator/fiber/assets/additive_noise.py:188-205", "algorithms/parameter_optimization_utils.py:93,186,195,206,393,398,422"]}
{"id": "C107", "title": "What sharing a species says about two designs", "statement": "After any history, in every round of speciate: for a distance with the triangle inequality, two members of one species are less than twice the threshold apart; for a distance that only tells kinds apart (labels; the exact edit distance with threshold below 1/2, default 1/100, between designs at most 30 edits apart) two individuals share a species if and only if they are of a kind, that is have the same label, or are the same design up to names. The edit cost answered by networkx satisfies the triangle inequality, so with threshold t two designs the distance does not tell from a third are at most 2t apart; with threshold 1 the distance is not transitive. The distance of class counts satisfies the triangle inequality only when multiplied by sqrt(n0^2 + n1^2), hence between designs with equally many nodes; otherwise nothing follows: for every M one round with threshold 9/10 can put designs further than M apart into one species.", "quantifier": "all distances with the named properties, histories of speciate, orders of iteration of sets, populations, designs", "why_tests_cant": "The bound holds for all populations and histories, the failure for every M; tests see single populations.", "anchors": ["algorithms/speciation.py:60-142", "algorithms/speciation.py:265-379", "algorithms/assets/graph_edit_distance.py:20-63"]}
{"id": "C108", "title": "What is printed and what is logged", "statement": "Logging of sys.stdout never keeps anything from the screen: all that is printed arrives there once and in order, also the text of a print that raises. If every init_logging has its close_logging and no object logs twice at a time, nothing raises, sys.stdout is as before, and each log file holds exactly what was printed while it was open, also where logs are nested. A log opened again under the same name is lost. Flushing sys.stdout closes the log, so that the next print raises ValueError; ending two logs in the order they began leaves a closed log as sys.stdout; an object that begins again before it ended never gives sys.stdout back; a run of topology_optimization that raises leaves logging on, and all that is printed later is appended to its log.", "quantifier": "all texts, all programs (sequences of printing, flushing, beginning and ending logs, raising), any nesting", "why_tests_cant": "Depends on the whole sequence of prints, logs and exceptions of a process; tests (which capture sys.stdout themselves) see a single one.", "anchors": ["lib/functions.py:45-84", "lib/functions.py:126-131", "algorithms/topology_optimization.py:30", "algorithms/topology_optimization.py:142"]}
{"id": "C109", "title": "What reaches the processes that do the work, and what does not", "statement": "When a generation is handed to ray, the results come back in the order of the population, whatever worker runs which task and in what order; each is what the parameter optimisation makes of that individual with evaluator and propagator as they were at ray.put; the individuals handed in are unchanged, those returned are new objects; if a task fails its exception is raised and nothing is returned. If the outcome does not depend on the state of the process it does not depend on the number of workers or the schedule. Neither the noise switch nor the seeds a script sets reach the workers: the scores of a run are scores with noise, and a run of a seeded script cannot be repeated. A signal-to-noise evaluation that fails on a worker changes the scores of later tasks there.", "quantifier": "all populations, all numbers of workers and schedules, all jobs, all histories of statements in the script", "why_tests_cant": "The schedule is not under the control of a test, and what differs between processes does not show in local mode, in which tests run.", "anchors": ["algorithms/topology_optimization.py:60-64", "algorithms/topology_optimization.py:79", "algorithms/topology_optimization.py:115-120", "algorithms/topology_optimization.py:567-569", "simulator/fiber/assets/additive_noise.py:30", "scripts/run_filter_design.py:64", "scripts/compare_evolvers.py:53-54"]}
{"id": "C110", "title": "What the command line makes of the options", "statement": "A command line is accepted exactly if it is a sequence of the four options, each spelled by its letter or by its name or an abbreviation of it, with or without a value, the value behind a space, an equals sign or directly; the script then sees for each option what was given last, or the default. Adding an option sets that one and no other, different options can be given in any order. A value that belongs to no option, and anything else, ends the process. `-v` alone does not switch messages on and `-v False` does. Every text is accepted as selection rule; only the run tells whether there is such a rule.", "quantifier": "all lists of arguments", "why_tests_cant": "The command lines are unbounded in number and length, and abbreviations, joined values and values beginning with a dash interact.", "anchors": ["lib/functions.py:34-42", "scripts/compare_evolvers.py:107-133", "scripts/benchmark_elitism.py:99-122"]}
{"id": "C111", "title": "What the benchmark scripts do with their runs", "statement": "The benchmark scripts make each combination of repetition and setting just once, each in a folder of its own, with the population size of the setting and a hall of fame that is the smaller one of the size asked for and of the population. In the comparison of evolvers each run leaves in its folder what it would leave if it were the only one, whatever the other runs do and whether they fail; a run that goes through leaves exactly the files of a topology optimisation; nothing else on the disk changes. The other two scripts end with the first run that fails. The log of a run that ends holds what was printed during it; that of a run that fails goes on to receive everything that is printed until the script ends. Two evolvers of one class share their folders.", "quantifier": "all lists of settings, numbers of repetitions, all runs with any writing calls and failures, all states of the disk in which no file is in the way of a folder", "why_tests_cant": "A benchmark takes days, and what one run does to the results of another depends on the order of all of them and on where they fail.", "anchors": ["scripts/compare_evolvers.py:39-84", "scripts/benchmark_elitism.py:38-78", "scripts/benchmark_selection_rules.py:43-74", "lib/functions.py:126-168"]}
{"id": "C112", "title": "A propagator after any series of assignments", "statement": "Whatever is assigned to a propagator, in whatever order and whichever of it fails: times, frequencies and both steps belong together and to the number of samples accepted last, the window and the carrier stay those of the constructor (no assignment to the window is accepted), and the state is the array assigned last. But a number of samples that is refused stays in n_samples; the wavelengths and the state keep the number of samples of the constructor, so that after a change of n_samples the continuous-wave laser and the impulse send fields of the old length and a modulator behind them raises, while the pulsed sources follow; and a state of any shape is accepted.", "quantifier": "all arguments of the constructor, all finite series of assignments of any values to the attributes", "why_tests_cant": "A test makes a propagator and uses it; what is left over depends on the whole series of assignments, also on those that failed.", "anchors": ["simulator/fiber/assets/propagator.py:10-97", "simulator/fiber/node_types_subclasses/inputs.py:74-78", "simulator/fiber/node_types_subclasses/inputs.py:111-114", "simulator/fiber/node_types_subclasses/inputs.py:230-232", "lib/graph.py:305-306"]}
{"id": "C113", "title": "What the analysis of benchmark logs shows", "statement": "display_log_data finds, for a ratio written without exponent, the folder that the elitism benchmark makes for the setting. For each category it draws exactly the curves asked for among mean, minimum and maximum. Their points are, for each generation that some run has, the sums over the runs that have it divided by the number of all runs: with runs of equal length the mean at the generation, with runs of different length a value and a generation too low by the share of the runs that got so far. After a benchmark that went through in a new folder the average is over all repetitions of the setting and nothing else, whatever the order of the listing. A single entry without a readable log, an empty folder, no categories or another axis make the call raise and nothing is shown; the number of runs in the title is that of the last category; a ratio that Python writes with an exponent is not found.", "quantifier": "all tables over a field, all numbers and lengths of runs, all lists of categories, all disks and listings, all benchmarks", "why_tests_cant": "A test has a few logs of equal length; the averages, the listing orders and the failures range over all combinations.", "anchors": ["scripts/elitism_data_analysis.py:24-71", "scripts/benchmark_elitism.py:38-78", "algorithms/topology_optimization.py:95-137"]}
{"id": "C114", "title": "What the condensed figure of the comparison of methods shows", "statement": "For a method with logs of rising times, the figure results_condensed has a thousand points, equally spaced from time zero to the time at which the first of all its logs ends. A point shows the mean, the least and the greatest of the values, at that time, of those of the first n_runs runs that have logged a row by then, each read off its own log on the straight line between two neighbouring rows (at the time of a row, the value of the row); where no run has logged, the point is empty. The mean lies between least and greatest, and these within the logged means. From the time on at which every run has logged, the mean of runs that never rise does not rise; before that it can. With fewer logs than n_runs the script raises.", "quantifier": "all numbers of runs, all logs of at least two rows with rising times over an ordered field, all points", "why_tests_cant": "The values depend on how the rows of all runs interleave in time; a test has a few fixed logs.", "anchors": ["scripts/compare_algorithms.py:88-112"]}
{"id": "C115", "title": "What the figure of the hall of fame shows", "statement": "For an evaluator with a target, and designs without cycles, with one source, that are simulated to the end, plot_hof makes a figure with one row for each entry of the hall of fame, in its order: the design with every node and edge named and arrows pointing from left to right, the target, the magnitude of what the design delivers at the sink with its present parameters, and index and score of the entry. If the score of the entry is what the evaluator gives for the design, it is the score of the very signal whose magnitude is drawn. The labels of parallel edges stand at different places. The three evaluators without a target get no figure whatever the hall of fame; an empty hall of fame, or one entry that cannot be simulated, has nothing at the sink, or has two sources, is enough that there is no figure.", "quantifier": "all halls of fame of any length, all designs, signals, parameters, behaviours of components, random heights", "why_tests_cant": "A figure is looked at for a few results; the order, the pairing of scores and curves and the failures range over all designs and all evaluators.", "anchors": ["algorithms/topology_optimization.py:582-602", "lib/graph.py:375-469"]}
{"id": "C116", "title": "What the random search for designs finds", "statement": "A search of M walks of N turns (scripts/run_derivative_phase_terms.py) that ends reports the least of zero and of all scores, one for each turn; it reports a design exactly if some score was below zero, namely a copy of the first design that got the least score, with its components as they were then. But, because the objective function of a graph survives copying and evolution, every one of these scores is a score of the start design, with its free parameters set to the first entries of the vector found for the evolved design: nothing better than what the start design can do is ever reported, the number reported need not be the score of the design reported, and better designs are passed over.", "quantifier": "all start designs, parameters and objectives that depend on a design's own components, all numbers and lengths of walks, all evolutions, all choices of the optimiser", "why_tests_cant": "The search is random and takes hours; a run that ends with a number and a design looks right.", "anchors": ["scripts/run_derivative_phase_terms.py:99-121", "lib/graph.py:122-141", "algorithms/parameter_optimization.py:21-29, 97-128"]}
{"id": "C117", "title": "What a triangular mutation does to a parameter", "statement": "triangle_sample replaces a parameter within its bounds by a value of the triangular law whose peak is the parameter and whose ends are half of triangle_width times the range away, cut at the bounds; so a float without a step size stays within the bounds and near its old value. With a step size it is a multiple of the step that may lie up to half a step beyond a bound. An integer stays an integer, within bounds that are integers; but because int cuts towards zero, a parameter whose range is below two over the width (40 for the default) never moves away from zero: one half of the draws lower it, no draw raises it, and no sequence of mutations brings it back. Bounds that are not integers can be left. No parameter is a RuntimeError; parameters outside of their bounds, equal bounds and unknown types are ValueErrors.", "quantifier": "all parameters, bounds, widths, steps, draws, numbers of mutations", "why_tests_cant": "A law of distribution is about the measure of all draws; a drift shows only over many mutations.", "anchors": ["lib/graph.py:644-669", "simulator/fiber/graph.py:654-680"]}
{"id": "C118", "title": "What the gain curve of an amplifier shows", "statement": "The gain curve of OpticalAmplifier (_calculate_small_signal_gain) is the gain the amplifier applies to weak signals: equal to it at every frequency of the grid. In decibels it is the peak gain at the peak wavelength, less by exactly the gain flatness at the band edge further away in frequency, and strictly less the further a frequency is from the peak. display_small_signal_gain never shows it: the band edges are floats, for which range is a TypeError.", "quantifier": "all parameters of an amplifier, all frequencies, all grids", "why_tests_cant": "Two formulas written twice agree at the tested points; monotony and the exact values at the edges are claims about all real frequencies.", "anchors": ["simulator/fiber/node_types_subclasses/single_path.py:519-580"]}
{"id": "C119", "title": "Switching noise off and on", "statement": "After any history of making, copying and re-parametrising components and of assignments to the switches, a component adds noise exactly if its own noise_on is on - as last set on that component - and AdditiveNoise.simulate_with_noise was last set to True; switching one component, or the original of a copy, says nothing about another. Findings: AdditiveNoise.noise_on = ... and noise_model.simulate_with_noise = ... have no effect anywhere in a history; an assignment of parameters switches a CW laser or a photodiode on again; the phase noise of a modulator ignores its noise_on.", "quantifier": "all histories of events, all components", "why_tests_cant": "Which assignment decides depends on the whole history: Python looks attributes up on the object and then on the class, and assignments of parameters replace the object. Tests see single histories, and several of the tests make an assignment without effect.", "anchors": ["simulator/fiber/assets/additive_noise.py:30-62", "simulator/fiber/assets/additive_noise.py:116", "simulator/fiber/assets/additive_noise.py:167", "simulator/fiber/node_types_subclasses/inputs.py:115-158", "simulator/fiber/node_types_subclasses/single_path.py:189-190", "simulator/fiber/node_types_subclasses/outputs.py:136-150", "lib/base_classes.py:41-48"]}
{"id": "C120", "title": "What the displays of noise show", "statement": "display_noise_contributions draws power and spectrum of the output with noise, without noise, and of the difference of the two states, all spectra in decibels relative to the peak of the noisy one, and leaves the switch of noise as it was; the three powers differ by the beat of noise and signal. A display of a noise object shows what the signal gets when it is propagated with that propagator afterwards. Findings: display_noisy_signal and display_noise show the power half a window away from the times of their axis; with noise switched off display_noise has no spectrum (zero by zero); display_noise_sources_absolute shows vectors drawn for the propagator used last whatever propagator is given, and is a TypeError for an unused object while noise is off.", "quantifier": "all designs, signals, noise objects and their histories, numbers of samples", "why_tests_cant": "What a figure shows is not asserted by tests; that the curves belong to the times and states they are labelled with is a statement about all signals and grids.", "anchors": ["lib/graph.py:263-283", "simulator/fiber/assets/additive_noise.py:311-373"]}
{"id": "C121", "title": "Dispersion multiplies the rate of a pulse train by any factor", "statement": "A train of pulses that goes through a DispersiveFiber of length (p/q) T^2/(4 pi 22e-27), p/q in lowest terms and p q even, T the repetition time, comes out as q copies of itself, moved by multiples of T/q, all with the same weight 1/sqrt(q). If the pulses are shorter than T/q the power is a train of q times the rate whose pulses have the q-th part of the power (for an even number of samples it is late by p/(2m) steps of T/q, m pulses in the window). PulseRepetition given the repetition time of that target scores it zero. Finding: the scripts give it the repetition time of the input, at which the target has nothing: outputs with a line there are a division by zero, all others are compared without being aligned, so the perfect fibre is scored by its lateness.", "quantifier": "all numbers of samples and pulses, all fractions p/q, all pulse shapes, all windows", "why_tests_cant": "The scripts optimise towards one fraction (4/3, 1/2) with one pulse shape; that each rate is reachable exactly, and at which length, is a statement about Gauss sums for all p and q.", "anchors": ["simulator/fiber/node_types_subclasses/single_path.py:60-79", "simulator/fiber/evaluator_subclasses/evaluator_pulserep.py:14-86", "scripts/batch_pulse_rep.py:31-75", "scripts/test_pulse_rep_talbot.py:25-36"]}
{"id": "C122", "title": "An optimised design holds plain numbers, not the tracers of automatic differentiation", "statement": "The score, its gradient and its second derivatives write what they are called with into the components; for a derivative these are the boxes of autograd, and everything computed from them is a box as well. After a successful call at x, extract_parameters_to_list gives the numbers of x without any box, whereas extract_attributes_to_list_experimental gives one box per derivative. One call of graph.func at plain numbers takes every box out of the design - parameters, other stored values, noise, stored signals - whatever calls came before; without it every free parameter is a box. So the design that parameters_optimize_complete returns, whatever calls the optimiser makes, holds no box at all (nor does its matrix of second derivatives) and its parameters are the result of the optimiser. Finding: asking for second derivatives at the parameters read as attributes puts them two boxes deeper each time.", "quantifier": "all designs, all lists of calls an optimiser makes at any depth of tracing, all components that compute from their parameters and their input without boxes of their own", "why_tests_cant": "A test looks at a design after one particular sequence of calls; that no sequence leaves a box in any component, signal or matrix is an invariant over all of them.", "anchors": ["lib/autodiff_helpers.py", "lib/graph.py:122-150", "lib/graph.py:525-573", "lib/base_classes.py:73-77", "algorithms/topology_optimization.py:539-557", "interactive/model.py:252-261"]}
{"id": "C123", "title": "Light keeps the rhythm of sources and modulators, and no waveform comes without one", "statement": "If after some number of samples every source and every modulator of a design repeats itself (around the end of the grid), so does the light on every edge and the signal of every detector, whatever the topology, the amplifiers, filters and delays; the spectra have only lines at multiples of that common rate. Hence steady lasers without a modulator give steady signals everywhere, and the score of RadioFrequencyWaveformGeneration is at least the spread of the target over the squared amplitude (positive unless the target is constant), with equality only for the mean of the target. Nor does phase alone: along single paths phase modulators leave the power even and detectors read a constant. Findings: a design whose common rate has no line at the harmonic of the target is not aligned by RadioFrequencyWaveformGeneration and PulseRepetition, but scored by its lateness too; a modulator with whole periods in the window is out of step at the end of the grid, since both ends are sampled.", "quantifier": "all designs and component parameters, all numbers of samples and windows, all common periods, all targets", "why_tests_cant": "That a search cannot get a waveform without a modulator, whichever topology it grows, is a statement about all designs; a test runs one.", "anchors": ["simulator/fiber/node_types_subclasses/single_path.py:120-240", "simulator/fiber/node_types_subclasses/inputs.py:110-113", "simulator/fiber/assets/propagator.py:89-94", "simulator/fiber/evaluator_subclasses/evaluator_rfawg.py:49-97", "simulator/fiber/evaluator_subclasses/evaluator_pulserep.py:34-86", "lib/graph.py:291-326"]}
{"id": "C124", "title": "Designs without modulators are filters, and no filter comes without delay", "statement": "A design without modulators, detectors and saturating amplifiers, whatever its topology, is a filter: if it runs on one light it runs on every light, and every place of it has one response such that each line of the spectrum there is that line of the source times the response. On the light of an Impulse, FilterDesign scores the modulus of the response alone. With splitters, attenuators, phase shifters and waveguides only, the light is everywhere a multiple of that of the source, so the score is minus the mean of the target, whatever topology and settings. With delay lines added whose delays are multiples of d steps of the grid, d r samples in all, the response repeats after r lines (the free spectral range). Where no component amplifies and no node has more inputs than outputs, the square of the response at an output is at most the number of sources at each frequency.", "quantifier": "all designs, parameters and light, all numbers of samples and windows, all targets", "why_tests_cant": "A test propagates one pulse through one design; that a design acts on each frequency by a factor that does not depend on the light, and which factors a set of components can reach, are statements about all designs and all signals.", "anchors": ["simulator/fiber/evaluator_subclasses/evaluator_filter_design.py:14-55", "simulator/fiber/node_types_subclasses/inputs.py:204-232", "simulator/fiber/node_types_subclasses/outputs.py:45-67", "simulator/fiber/node_types_subclasses/single_path.py:740-925", "scripts/run_filter_design.py:52-84", "lib/graph.py:291-326"]}
{"id": "C125", "title": "One phase in any design makes a two-beam fringe, and PhaseSensitivity scores its slope", "statement": "In any design with one phase shifter and a power meter in which what lies downstream of the phase shifter is linear (anything may lie upstream or beside it, modulators, amplifiers and filters included), the light at the meter is a part that has not passed the phase shifter plus a part that has, turned by the phase; the two parts do not depend on the phase. So the mean reading is a sinusoid in the phase whose swing is at most its mean, and the score of PhaseSensitivity is minus the swing times the sine of the distance from the crest. The score equals minus half the difference of the readings a quarter turn ahead and behind, and is zero exactly where the reading is largest or smallest. In a passive design whose nodes do not have more inputs than outputs no phase scores below minus half the mean power of the sources. If all light to the meter has passed the phase shifter, or none has, the reading does not depend on the phase and the score is zero. The evaluation puts the parameter back.", "quantifier": "all designs (topologies, components, parameters), all light, all phases, all numbers of samples and windows", "why_tests_cant": "The search grows arbitrary topologies around the protected phase shifter; that none of them can have another fringe than a sinusoid, nor a better score than the bound, is a statement about all of them, and about a derivative with respect to a real number.", "anchors": ["simulator/fiber/evaluator_subclasses/evaluator_phase_sensitivity.py:12-46", "simulator/fiber/node_types_subclasses/single_path.py", "simulator/fiber/node_types_subclasses/multi_path.py:54-76", "simulator/fiber/node_types_subclasses/outputs.py:40-41", "lib/graph.py:291-326"]}
{"id": "C126", "title": "How a meter reads every single phase and amplitude of a design", "statement": "Exchange one component of a design, everything else fixed. If what lies downstream of it is linear, then the light it is given does not change, and the light at any other component is a fixed part plus a linear map of what the component emits, whatever it is. So the reading of a power meter is, at every sample, a sinusoid in any one phase of the design (of a phase shifter, of one bin of a waveshaper, the bias of an intensity modulator): the readings at 0, at a quarter and at half a turn determine it at every phase, and its derivative by the phase is half the difference of the readings a quarter turn ahead and behind. It is an upward parabola in any one amplitude (an attenuator's, of one bin of a waveshaper, a coefficient of a programmable filter), so between two settings the reading and its mean never exceed the larger of those at the two settings: for power an attenuator is best at one of its limits. All of these runs succeed when one of them does and the component accepts its parameters.", "quantifier": "all designs (topologies, components, parameters), all components in place of one, all parameter values, all light, all numbers of samples, windows and bins", "why_tests_cant": "It is a statement about a function of a real parameter in every design the search can grow: no finite number of evaluations shows that three of them determine all the others.", "anchors": ["simulator/fiber/node_types_subclasses/single_path.py:108-116", "simulator/fiber/node_types_subclasses/single_path.py:224-240", "simulator/fiber/node_types_subclasses/single_path.py:280-321", "simulator/fiber/node_types_subclasses/single_path.py:646-672", "simulator/fiber/node_types_subclasses/single_path.py:908-925", "simulator/fiber/node_types_subclasses/multi_path.py:54-76", "simulator/fiber/node_types_subclasses/outputs.py:40-41", "lib/graph.py:291-326"]}
{"id": "C127", "title": "Without components in parallel there is no interference", "statement": "Where light is nowhere brought together, constant phases are seen nowhere: exchanging components for others that differ by constant phases (e.g. turning any number of phase shifters) leaves the power unchanged at every sample on every edge and at every output, and leaves what detectors deliver, saturating amplifiers, modulators and inner detectors included. A search that starts from a design with a single way for the light (no node with two components into it or out of it) keeps to such designs as long as it adds no component in parallel: adding in series, removing and swapping never make a branch. On all these designs PhaseSensitivity scores exactly zero, with every setting of all components; so any design with another score has a component added in parallel in its history.", "quantifier": "all graphs without joins, all components, settings, noise, fields; all unbranched acyclic start graphs, all libraries, all histories of evolution operators of any length at any offered locations with any draws, all sessions", "why_tests_cant": "It speaks about all histories of any length and about all parameter values at once; a test runs one history and evaluates at a few settings", "anchors": ["simulator/fiber/evolution_operators/evolution_operators.py", "simulator/fiber/evaluator_subclasses/evaluator_phase_sensitivity.py:12-46", "scripts/run_phase_sensitivity.py:66-84"]}
{"id": "C128", "title": "The number run_snr.py prints says nothing about the noise", "statement": "scripts/run_snr.py simulates a design without and with noise and prints a number labelled SNR, before and after optimising the parameters. A user relies on it to tell noisy designs from quiet ones. It does not: the number is 1 for every design, all parameters, all noise and any optimiser, except that it is nan exactly if the noisy light vanishes at some sample; designs which the evaluator SignalNoiseRatio scores differently print the same 1.", "quantifier": "all acyclic designs, all components' behaviours with and without noise, all parameters, all optimisers, all numbers of samples", "why_tests_cant": "A test would see the value 1 for one design and one draw of noise, which is a plausible ratio; that no design and no noise can give another value is a statement about all of them", "anchors": ["scripts/run_snr.py:53-64", "scripts/run_snr.py:72-88", "simulator/fiber/evaluator_subclasses/evaluator_snr.py:24-38"]}
{"id": "C129", "title": "The light in a design is the sum over all its ways, and so is its interference pattern", "statement": "After graph.propagate(propagator) of any design with linear components, the light every component is given is the sum over all ways on which light can come to it from a source, of the light that comes on that way as if no other existed; a power meter reads the squared magnitude of that sum at every sample. At least one way leads to every component that is not a source, and at most one where light is nowhere brought together. Exchanging components for others that give a factor times as much light (other phases, attenuations, laser powers) multiplies the light on each way by the factors on it, so that the readings at all settings of all phase shifters together are known from the ways at one setting. With m ways, a meter reads at most m times the sum of the powers on them.", "quantifier": "all graphs, connectors (splitters with any ratios, frequency splitters), components, sources, settings of all phase shifters at once, sample numbers, windows; no saturating amplifier and no detector upstream of the component looked at", "why_tests_cant": "The number of ways grows exponentially with the number of parallel components and the settings form a continuum; a test sees one design at one setting.", "anchors": ["lib/graph.py:285-329", "simulator/fiber/node_types_subclasses/multi_path.py:35-133", "simulator/fiber/node_types_subclasses/single_path.py:873-916"]}
{"id": "C130", "title": "The response of networks of splitters and delay lines in closed form, and what FilterDesign scores of it", "statement": "For every design built of power splitters, delay lines (both kinds), phase shifters, attenuators and waveguides, each line of the spectrum of the light a component is given after graph.propagate(propagator) is that line of the source's spectrum times the sum over all ways from the source of the product of all factors on the way (square root of the share of each splitter output over the number of outputs, the splitter's phase, attenuations, phase shifts), turned by 2*pi times the optical frequency times the sum of the delays on the way. FilterDesign scores exactly the modulus of that sum when the design is lit by an Impulse. Where the delay is the same on all ways the modulus is the same at all frequencies, whatever the topology; two ways make a cosine fringe over frequency whose period is the inverse of the difference of their delays.", "quantifier": "all graphs, splitter ratios, delays, phases, attenuations, sources, sample numbers, windows and spectral lines", "why_tests_cant": "The number of ways grows exponentially with the design, and the claim is about all frequencies and all parameter values of all designs; a test compares a simulation with itself on one of them.", "anchors": ["simulator/fiber/node_types_subclasses/multi_path.py:54-76", "simulator/fiber/node_types_subclasses/single_path.py:765-781", "simulator/fiber/node_types_subclasses/single_path.py:823-839", "simulator/fiber/evaluator_subclasses/evaluator_filter_design.py:24-39", "scripts/run_filter_design.py:60-100"]}
{"id": "C131", "title": "Which methods make repeats of parameter optimisation independent runs", "statement": "Calling parameters_optimize again on the same components (as the thirty repeats of run_discrete_time_lens.py do, which make the graph anew from the same component objects) starts where the call before ended, if the method is 'GA' or 'L-BFGS+GA': the scores never rise from repeat to repeat, and with 'GA' none is above that of the start. With 'PSO', 'L-BFGS+PSO' and 'CHEAP' each repeat returns exactly what it would return as the first one. 'GA' keeps a start outside of the bounds when it scores better than anything within them; with 'L-BFGS+GA' every result is within the bounds.", "quantifier": "all designs, objectives, starts, bounds, numbers of repeats, random numbers and behaviours of the outside optimisers", "why_tests_cant": "The scores of repeats differ by chance anyway; a test cannot tell a chain of runs from independent ones, and cannot try all objectives.", "anchors": ["scripts/run_discrete_time_lens.py:99-104", "algorithms/parameter_optimization.py:21-26", "algorithms/parameter_optimization.py:98-129", "algorithms/parameter_optimization.py:318-374", "lib/graph.py:34-70"]}
{"id": "C132", "title": "How sharp and how exact the filters of delay networks are", "statement": "For every design built of power splitters, delay lines, phase shifters, attenuators and waveguides and lit by an Impulse: between any two spectral lines the amplitude at a field meter changes at most by 2*pi times their frequency difference times the sum over all ways of the product of the way's factor and the distance of its delay to any reference delay. Where the delays of all ways differ by whole multiples of T, the response repeats over frequency with period 1/T, so no single band can be picked out. Errors of delays change the response at most by 2*pi times the optical frequency times the sum of factor times error; and with two ways, an error of half an optical period of the one delay line takes every spectral line from the brightest to the darkest interference.", "quantifier": "all graphs, splitter ratios, delays, delay errors, phases, attenuations, sample numbers, windows, spectral lines and pairs of lines", "why_tests_cant": "These are limits on what any parameter setting of any topology can reach; a test tries one setting of one topology, and the optimiser not finding a sharper filter does not show there is none.", "anchors": ["simulator/fiber/node_types_subclasses/single_path.py:735-781", "simulator/fiber/node_types_subclasses/single_path.py:788-839", "simulator/fiber/node_types_subclasses/multi_path.py:54-76", "simulator/fiber/evaluator_subclasses/evaluator_filter_design.py:24-39", "scripts/run_filter_design.py:60-100"]}
{"id": "C133", "title": "What the parameter genetic algorithm can find, and what its evaluations are spent on", "statement": "parameters_genetic_algorithm never adjusts a value: in every vector it evaluates, and in the one it returns, each parameter has its value at the start or the one it has in a vector of generate_random_func; the number of such vectors is n_generations * (floor(rate_mut*n_population) + n_population//20), so that of each parameter at most one value more than that is tried, whatever the objective. In the first generation all crossovers are of copies of x0: after the n_population evaluations of x0 and those of the newcomers, the next 2*floor(rate_crx*n_population) evaluations are of x0 again.", "quantifier": "all objective functions (also noisy ones), start vectors, generators of random vectors, random choices, rates, population sizes and numbers of generations", "why_tests_cant": "That a value can never be reached is a statement about all runs; a test only sees values that were reached.", "anchors": ["algorithms/parameter_optimization.py:318-374", "algorithms/parameter_optimization.py:377-384", "algorithms/parameter_optimization.py:395-406", "algorithms/parameter_optimization.py:248-251"]}
{"id": "C134", "title": "How far bounded Adam can go, and how fine", "statement": "adam_bounded moves each parameter, from a start within the bounds, at most by the number of iterations times a step that follows from step_size, b1 and b2 alone, whatever the gradients, the objective, the bounds and the unit of the parameter; with the arguments of parameters_optimize the step is at most 1/40, so method ADAM changes no parameter by more than 25. Conversely, in the first iteration each parameter whose derivative is at least eps moves by at least half the step size, so a parameter whose bounds are closer together than that is at a bound when the gradient is taken the second time, wherever it started.", "quantifier": "all objectives, gradients (also noisy ones), bounds, starts, numbers of iterations, convergence periods and moment decay rates with b1 <= b2 and b1^2 < b2", "why_tests_cant": "That no gradient whatever can bring a parameter further is a statement about all runs; a test shows how far one run came.", "anchors": ["algorithms/parameter_optimization.py:260-315", "algorithms/parameter_optimization.py:198-211", "simulator/fiber/node_types_subclasses/single_path.py:35", "simulator/fiber/node_types_subclasses/single_path.py:738-739"]}
