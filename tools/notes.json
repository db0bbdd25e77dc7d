{
 "C01": {"note": "all histories, all operators, all offered locations, every topological order and every draw"},
 "C06": {"note": "exact characterisation of reachability after a removal; a merge can add paths (C06_merge_can_add_paths)"},
 "C10": {"note": "exact: a step leaves the limits iff it is a merging removal whose ends do not fit (C10_limits_step); over all histories such a step is the only cause (C10_limits_history); it does occur (C10_merge_breaks_limit)"}
}
