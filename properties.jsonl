{"id": "C01", "title": "Polynomial hashes stay in range and a window hash depends only on the window", "statement": "calculate_string_poly_hash and calculate_poly_hash_for_collection always return a value in [0, 10^9+7). The hash of the window [start,end) of a non-empty collection depends only on the elements of that window, not on where the window sits nor on what surrounds it; it equals 1 + sum (1+hash(x_i))*31^i modulo 10^9+7.", "quantifier": "for every string, every list of element hashes and every window inside it", "why_tests_cant": "a test fixes a few strings; the range and the positional independence must hold for unboundedly long inputs where the running power wraps around the modulus", "anchors": ["src/python/ficus/legacy/util.py: calculate_string_poly_hash, calculate_poly_hash_for_collection"]}
{"id": "C02", "title": "Event hash does not depend on the insertion order of the payload", "statement": "Two events whose payload dictionaries hold the same key/value pairs have the same hash and compare equal, whatever the order in which the keys were inserted.", "quantifier": "for every payload and every permutation of its insertion order", "why_tests_cant": "the number of insertion orders is factorial in the payload size; tests try one or two", "anchors": ["src/python/ficus/legacy/util.py: calculate_dict_hash", "src/python/ficus/legacy/log/event_log.py: MyEvent.__hash__, MyEvent.__eq__"]}
{"id": "C03", "title": "Event equality is payload equality", "statement": "Two events compare equal exactly when their payloads are the same key/value mapping. (Desired; the code compares hashes of concatenated key+value strings, so the 'only if' half fails.)", "quantifier": "for every two payloads", "why_tests_cant": "tests compare hand picked events; whether two different payloads can ever collide is a question about all pairs", "anchors": ["src/python/ficus/legacy/log/event_log.py: MyEvent.__eq__", "src/python/ficus/legacy/util.py: calculate_dict_hash"]}
{"id": "C04", "title": "Text round trip of a log", "statement": "Serialising a log to text and parsing the lines back with the same separators yields the same sequence of event names, provided no name contains a separator and no trace is empty; and parsing strings then serialising gives the strings joined by the trace separator.", "quantifier": "for every log, every non-empty separators, and every list of input strings", "why_tests_cant": "string splitting is sensitive to separators overlapping names and to empty traces, which tests sample only on a few one-letter logs", "anchors": ["src/python/ficus/legacy/log/functions.py: parse_trace_from_string, parse_log_from_strings, serialize_log"]}
{"id": "C05", "title": "XES round trip of a log", "statement": "Writing a log to XES and reading it back yields the same attributes, extensions, classifiers, global values and, per trace and event in order, the same typed payload mapping. (Desired; fails for boolean False, for non-empty log properties, for non-string global values, for events that lack a globally defaulted key and for degenerate classifiers. The logs that come back unchanged are characterised exactly; from the second round trip on nothing changes.)", "quantifier": "for every log representable by the classes of the project", "why_tests_cant": "depends on every combination of defaults, value types and key names; tests round trip a handful of well behaved logs", "anchors": ["src/python/ficus/legacy/log/functions.py: read_log_from_xes, serialize_log_to_xes, _create_value_tag, _check_if_default_value"]}
{"id": "C06", "title": "Removing an event class removes exactly that class", "statement": "remove_event_from_log(log, name) keeps, in the original order, exactly the events whose name differs from the given one, and exactly the traces that keep at least one event; remove_events_from_log does so for a set of names; the result never contains an empty trace; the operation is idempotent and removals commute.", "quantifier": "for every log and every name or set of names", "why_tests_cant": "quantifies over all logs and all sequences of removals", "anchors": ["src/python/ficus/legacy/mutations/event_log_mutations.py: remove_event_from_log, remove_events_from_log, filter_log, _filter_events"]}
{"id": "C07", "title": "Removing several classes at once equals removing them one after another", "statement": "remove_events_from_log(log, {a1..an}) produces the same log as applying remove_event_from_log for a1, ..., an in any order (for n >= 1).", "quantifier": "for every log, every finite set of names and every order of the single removals", "why_tests_cant": "factorially many orders", "anchors": ["src/python/ficus/legacy/mutations/event_log_mutations.py: remove_event_from_log, remove_events_from_log"]}
{"id": "C08", "title": "Trace length filter", "statement": "remove_empty_traces(log, k) keeps, in order, exactly the traces with more than k events and does not alter them.", "quantifier": "for every log and every bound", "why_tests_cant": "boundary behaviour for every length/bound combination", "anchors": ["src/python/ficus/legacy/mutations/event_log_mutations.py: remove_empty_traces, _filter_traces"]}
{"id": "C09", "title": "Directly-follows counts are exact", "statement": "create_log_information reports for each pair (a,b) exactly the number of positions, over all traces after dropping the ignored events, at which b directly follows a, with the artificial start and end events framing every trace when requested, and reports for each event name the number of its non-ignored occurrences. No pair with count zero is reported.", "quantifier": "for every log, every set of ignored names and both settings of the artificial events flag", "why_tests_cant": "correctness of a stateful scan (previous event pointer across ignored events) over all logs", "anchors": ["src/python/ficus/legacy/analysis/event_log_info.py: create_log_information, create_dfg"]}
{"id": "C10", "title": "Flow conservation of the directly-follows graph", "statement": "With artificial start and end events, for every event name a the outgoing pair counts of a sum to the number of occurrences of a and so do the incoming ones; the counts out of the artificial start equal the counts into the artificial end and equal the number of traces that keep an event after dropping the ignored ones (provided no real event carries an artificial name).", "quantifier": "for every log and every ignored set", "why_tests_cant": "a global counting identity over all logs", "anchors": ["src/python/ficus/legacy/analysis/event_log_info.py: create_log_information"]}
{"id": "C11", "title": "Followers and single-follower sets are exact", "statement": "followed_events maps each event to exactly the set of its direct followers, and events_with_single_follower contains exactly the events with exactly one distinct direct follower.", "quantifier": "for every dictionary of pairs in every insertion order", "why_tests_cant": "the incremental add/remove scheme could re-add or miss events for some orders of three or more followers", "anchors": ["src/python/ficus/legacy/analysis/event_log_info.py: DirectlyFollowsGraph"]}
{"id": "C12", "title": "find_all_events_names returns the universally satisfying names", "statement": "find_all_events_names(log, predicate) returns exactly the names that occur in the log and all of whose events satisfy the predicate.", "quantifier": "for every log and every predicate", "why_tests_cant": "order dependent two-set scan; the result must be independent of where the violating event occurs", "anchors": ["src/python/ficus/legacy/analysis/event_log_info.py: find_all_events_names"]}
{"id": "C13", "title": "Trace variants partition the log", "statement": "split_log_by_traces partitions the traces of the log: every trace occurrence appears in exactly one group, no group is empty, and two traces are in one group exactly when they have the same length and the same sequence of event-name hashes.", "quantifier": "for every log", "why_tests_cant": "iterated refinement with early exits; tests use logs of a few traces", "anchors": ["src/python/ficus/legacy/analysis/event_log_split.py: split_log_by_traces"]}
{"id": "C14", "title": "Trace variants are exactly the distinct name sequences", "statement": "Two traces fall in the same variant exactly when their sequences of event names are equal, and filtering by variants keeps exactly one trace for each distinct name sequence. (Desired; holds when the name hash is injective on the log, and fails in general: the names 'aB' and 'BC' collide.)", "quantifier": "for every log", "why_tests_cant": "hash collisions are invisible to sampled tests", "anchors": ["src/python/ficus/legacy/analysis/event_log_split.py: split_log_by_traces", "src/python/ficus/legacy/pipelines/mutations/mutations_parts.py: FilterTracesByVariants"]}
{"id": "C15", "title": "Merging all traces keeps all events and separates traces", "statement": "merge_all_traces_in_one_log yields a log with one trace that is the concatenation of all traces, each followed by one separator event whose fresh name occurs nowhere else, so no repeat that avoids separators spans two traces.", "quantifier": "for every log and every stream of distinct fresh identifiers", "why_tests_cant": "freshness and concatenation over all logs", "anchors": ["src/python/ficus/legacy/analysis/event_log_split.py: merge_all_traces_in_one_log, create_unique_event"]}
{"id": "C16", "title": "Directly-follows and precedes ratios are probability vectors", "statement": "For every event of a log the directly-follows vector and the directly-precedes vector used for the entropy have entries in [0,1] that sum to 1, both for the plain and for the Laplace smoothed variant; hence the entropy of every event is non-negative (and no division by zero occurs).", "quantifier": "for every log without artificially named events and every ignored set", "why_tests_cant": "a real-valued identity over all logs", "anchors": ["src/python/ficus/legacy/analysis/event_log_analysis_entropy.py: calculate_default_entropies, calculate_laplace_entropies, _calculate_entropies"]}
{"id": "C17", "title": "The fast position entropy agrees with the reference implementation", "statement": "calculate_position_entropy_fast computes the same per-position counts, the same number of non-empty traces, and hence the same entropy as calculate_position_entropy, for every log and every ignored set that does not contain the event, and neither indexes outside its vector.", "quantifier": "for every log, event name and ignored set", "why_tests_cant": "two algorithms are compared on all inputs; tests compare a few logs", "anchors": ["src/python/ficus/legacy/analysis/event_log_analysis_entropy.py: calculate_position_entropy_fast, calculate_position_entropy, create_events_positions"]}
{"id": "C18", "title": "Ignoring events equals removing them", "statement": "The position entropy counts of an event computed while ignoring a set of names equal the counts computed on the log from which these names were removed.", "quantifier": "for every log, event and ignored set not containing the event", "why_tests_cant": "quantifies over all logs", "anchors": ["src/python/ficus/legacy/analysis/event_log_analysis_entropy.py: calculate_position_entropy", "src/python/ficus/legacy/mutations/event_log_mutations.py: remove_events_from_log"]}
{"id": "C19", "title": "Position entropy lies in [0,1]", "statement": "For an event that occurs in a log with at least two non-empty traces, the position entropy is a real number between 0 and 1. (With a single non-empty trace the code divides by log 1 = 0.)", "quantifier": "for every log and event", "why_tests_cant": "real-valued bound over all logs", "anchors": ["src/python/ficus/legacy/analysis/event_log_analysis_entropy.py: _do_calculate_position_entropy"]}
{"id": "C20", "title": "The direct entropy filter terminates and meets its threshold", "statement": "The direct metric filter terminates on every log for every metric whose keys are event names of the log; if it returns normally, the result is the input log with a set of event names removed, and either the log is empty, or the removal budget is exhausted, or every touchable event has a metric at most the threshold; names declared untouchable are never removed; every removed name had the largest metric, above the threshold, at its removal.", "quantifier": "for every log, metric function, threshold, budget and untouchable set", "why_tests_cant": "loop termination and a postcondition over an arbitrary metric", "anchors": ["src/python/ficus/legacy/filtering/event_log_filters.py: _do_filter_by_metric_direct, _remove_untouchable_events_from, filter_events_default_entropy_direct, filter_events_pos_entropy_direct"]}
{"id": "C21", "title": "The direct filter respects its removal budget", "statement": "At most max_events_to_remove event names are removed. (Desired; holds for budgets >= 1 and fails for budget 0, because the budget is compared with == after the increment.)", "quantifier": "for every log, metric, threshold and budget", "why_tests_cant": "boundary of the budget for all logs", "anchors": ["src/python/ficus/legacy/filtering/event_log_filters.py: _do_filter_by_metric_direct"]}
{"id": "C22", "title": "When the direct filter fails", "statement": "The direct filter raises exactly if a legal sequence of removals within the budget leads to a log that is not empty and for which the metric has no entry, and the exception is ValueError; so it never raises for logs without empty traces and untouchable events, and always raises at the start if all events of a log with traces are untouchable.", "quantifier": "for every log, metric and untouchable set", "why_tests_cant": "error reachability over all runs", "anchors": ["src/python/ficus/legacy/filtering/event_log_filters.py: _determine_next_event_to_remove_direct, _do_filter_by_metric_direct"]}
{"id": "C23", "title": "The indirect entropy filter makes progress", "statement": "Each iteration of the indirect filter removes at least one event class until the threshold is met. (Desired; fails: when int(n*top_percent) is 0, no candidate is chosen and the log never changes however many iterations run.)", "quantifier": "for every log, metric and parameter setting", "why_tests_cant": "a liveness question about an unbounded loop", "anchors": ["src/python/ficus/legacy/filtering/event_log_filters.py: next_removal_default_entropy_indirect, filter_events_default_entropy_indirect"]}
{"id": "C24", "title": "Reported tandem arrays are tandem arrays", "statement": "Every maximal tandem array reported for a trace lies inside the trace, has a block length in [2, max_length), at least two repetitions, consists of that many equal consecutive blocks, and cannot be extended by another block to the right; no two reports have the same block; primitive arrays are a subset of the maximal ones.", "quantifier": "for every trace of event hashes (hash values being collision free on windows) and every maximum length", "why_tests_cant": "pattern soundness over all traces", "anchors": ["src/python/ficus/legacy/analysis/patterns/event_log_patterns.py: find_maximal_tandem_arrays, _try_extract_tandem_array, find_primitive_tandem_arrays"]}
{"id": "C25", "title": "Every tandem array block is reported", "statement": "For every tandem array of a trace with block length in [2,max_length) some report has the same block. (Desired; proved when the block's first occurrence in the trace starts a tandem array; fails in general: in a b c a b a b the block 'a b' is never reported.)", "quantifier": "for every trace and every tandem array in it", "why_tests_cant": "completeness over all traces", "anchors": ["src/python/ficus/legacy/analysis/patterns/event_log_patterns.py: find_maximal_tandem_arrays"]}
{"id": "C26", "title": "Primitive tandem arrays have primitive blocks", "statement": "No reported primitive tandem array has a block that is itself a power of a shorter word. (Desired; proved for shorter words of length at least 2; fails for length 1: 'a a' is reported as a primitive block.)", "quantifier": "for every trace and maximum length", "why_tests_cant": "word-combinatorial property over all traces", "anchors": ["src/python/ficus/legacy/analysis/patterns/event_log_patterns.py: find_primitive_tandem_arrays"]}
{"id": "C27", "title": "Repeat sets are deduplicated and complete", "statement": "create_repeat_sets returns one entry per distinct set of events among the given sub-arrays, each backed by the first sub-array with that event set; every sub-array's event set is represented as long as different sets have different hashes. In any case the entries are exactly the first sub-arrays of every hash of a set.", "quantifier": "for every log and every list of sub-arrays inside it", "why_tests_cant": "quantifies over all collections of sub arrays", "anchors": ["src/python/ficus/legacy/analysis/patterns/event_log_patterns.py: _do_create_repeat_sets"]}
{"id": "C28", "title": "The activity tree is a forest over the repeat sets ordered by inclusion", "statement": "build_repeat_set_tree places every repeat set in exactly one place of the forest; every child's event set is contained in its parent's event set; a set is a root only if no larger earlier processed set contains it; parents have the smallest size among the candidates available.", "quantifier": "for every list of repeat sets", "why_tests_cant": "structural invariant of an incremental algorithm over all inputs", "anchors": ["src/python/ficus/legacy/analysis/patterns/event_log_patterns.py: _do_build_repeat_set_tree"]}
{"id": "C29", "title": "Extracted activity instances are disjoint, ordered, inside the trace and homogeneous", "statement": "extract_activities_from_log terminates; for every trace the reported instances are non-empty, sorted by start, pairwise disjoint, inside the trace, and every event of an instance belongs to the event set of its activity (also after narrowing).", "quantifier": "for every trace, every list of activities and every activity filter, with or without narrowing", "why_tests_cant": "loop invariants of an index manipulating scan over all traces", "anchors": ["src/python/ficus/legacy/analysis/patterns/event_log_patterns.py: _do_extract_activities_from_log, narrow_activity"]}
{"id": "C30", "title": "Extraction covers exactly the events known to some activity", "statement": "With the default filter, an event of a trace is covered by a reported instance if and only if it belongs to the event set of at least one of the given activities, and every instance is right-maximal for the activity chosen for it.", "quantifier": "for every trace and list of activities", "why_tests_cant": "coverage over all traces", "anchors": ["src/python/ficus/legacy/analysis/patterns/event_log_patterns.py: _do_extract_activities_from_log"]}
{"id": "C31", "title": "Narrowing picks the smallest covering descendant", "statement": "narrow_activity returns the node itself or one of its descendants, its event set contains the observed set, and no descendant in the tree with a smaller set contains the observed set.", "quantifier": "for every activity tree and every observed set", "why_tests_cant": "breadth first search over arbitrary trees", "anchors": ["src/python/ficus/legacy/analysis/patterns/event_log_patterns.py: narrow_activity"]}
{"id": "C32", "title": "Activities and gaps tile the trace", "statement": "Processing a trace against a sorted, disjoint, in-bounds list of activity instances visits consecutive intervals that cover every position of the trace exactly once: each instance once, in order, and each non-empty gap once.", "quantifier": "for every trace length and every well-formed list of instances", "why_tests_cant": "exact cover for all instance lists", "anchors": ["src/python/ficus/legacy/analysis/patterns/event_log_patterns.py: _process_trace_activities"]}
{"id": "C33", "title": "Abstraction keeps the underlying events", "statement": "Creating a new log from activities with the 'insert all events' strategy and then substituting original events gives back exactly the (expanded) events of the original log in order, for any number of nested abstraction rounds; hence the number of underlying events is preserved.", "quantifier": "for every log, every well-formed instance lists, and every number of nested rounds", "why_tests_cant": "round trip through nested structure, unbounded depth", "anchors": ["src/python/ficus/legacy/analysis/patterns/event_log_patterns.py: create_new_log_from_activities", "src/python/ficus/legacy/analysis/patterns/util.py: substitute_original_events"]}
{"id": "C34", "title": "Strategies of handling events outside activities", "statement": "With 'don't insert' the expanded new trace is exactly the concatenation of the events inside instances; with 'insert as single event' each maximal gap becomes exactly one undefined-activity event; the number of abstract events equals the number of instances.", "quantifier": "for every trace and well-formed instance list", "why_tests_cant": "three strategies over all instance lists", "anchors": ["src/python/ficus/legacy/analysis/patterns/event_log_patterns.py: create_new_log_from_activities"]}
{"id": "C35", "title": "Unattached events are the complement of the instances", "statement": "create_unattached_events_log returns per trace exactly the events outside all instances in order; together with the events inside the instances they account for all events.", "quantifier": "for every log and well-formed instance lists", "why_tests_cant": "counting identity over all logs", "anchors": ["src/python/ficus/legacy/analysis/patterns/event_log_patterns.py: create_unattached_events_log"]}
{"id": "C36", "title": "Adding activities from unattached events keeps existing instances", "statement": "add_unattached_activities returns a list sorted by start that contains every existing instance unchanged; new instances lie in the gaps, so the result is still disjoint and inside the trace; gaps shorter than the minimum are left alone.", "quantifier": "for every log, well-formed instance lists, activities and minimum lengths", "why_tests_cant": "preservation of a well-formedness invariant", "anchors": ["src/python/ficus/legacy/analysis/patterns/event_log_patterns.py: add_unattached_activities"]}
{"id": "C37", "title": "Counting underlying events terminates and equals the number of leaves", "statement": "count_underlying_events and calculate_underlying_events_count visit every nested original event exactly once, for events nested to any depth.", "quantifier": "for every nested event", "why_tests_cant": "unbounded nesting", "anchors": ["src/python/ficus/legacy/analysis/patterns/event_log_patterns.py: calculate_underlying_events_count, execute_with_underlying_events, count_underlying_events"]}
{"id": "C38", "title": "The class tree mirrors the class extractors", "statement": "build_class_tree produces a tree in which every node below a class node is mapped to it by the extractor of that level, every event name of the log is a leaf exactly once, and every class node has at least one child.", "quantifier": "for every log and every list of extractors", "why_tests_cant": "structure over all logs and extractor chains", "anchors": ["src/python/ficus/legacy/analysis/patterns/event_log_patterns.py: build_class_tree"]}
{"id": "C39", "title": "Logs per activity partition the instances", "statement": "create_logs_for_activities assigns every instance of the requested level to exactly one log, that of its activity name, as one trace that holds exactly the instance's events in order, traces being ordered by occurrence.", "quantifier": "for every log, instance lists and level", "why_tests_cant": "partition over all logs", "anchors": ["src/python/ficus/legacy/analysis/patterns/event_log_patterns.py: create_logs_for_activities"]}
{"id": "C40", "title": "Pattern segmentation tiles a prefix", "statement": "add_all_patterns cuts each trace in consecutive sub-arrays without gaps or overlaps, and terminates. (The final segment is never emitted: the tiling covers a prefix only; this is proved.)", "quantifier": "for every trace and every set of known patterns", "why_tests_cant": "loop invariant over all traces", "anchors": ["src/python/ficus/legacy/analysis/patterns/event_log_patterns.py: add_all_patterns"]}
{"id": "C41", "title": "Sequential composition of pipelines", "statement": "Executing a pipeline runs its parts in order, each on the previous result, None parts are skipped, any other non-part is rejected with TypeError at construction, and nesting a pipeline in a pipeline equals inlining its parts; the first failing part aborts the run.", "quantifier": "for every list of parts", "why_tests_cant": "algebraic law over all part lists", "anchors": ["src/python/ficus/legacy/pipelines/pipelines.py: Pipeline, _create_pipelines_list"]}
{"id": "C42", "title": "Context values obey get/put laws", "statement": "A value put under a key is returned by get_value_or_throw until it is overwritten or removed; other keys are untouched; reading an absent key raises ValueError; copying a context isolates later key updates in either direction.", "quantifier": "for every context history", "why_tests_cant": "all histories of puts, removals and copies", "anchors": ["src/python/ficus/legacy/pipelines/contexts/part_results.py: PipelinePartResult"]}
{"id": "C43", "title": "Copying combinators isolate the caller's context", "statement": "After WithInputCopy or ParallelPipeline, the caller's context is as before: same keys, same values, same logs. (Desired; key bindings are isolated, proved for all parts; the log objects are shared, so an in-place renaming inside the copy changes the caller's log.)", "quantifier": "for every nested pipeline and context", "why_tests_cant": "aliasing over all pipelines and heaps", "anchors": ["src/python/ficus/legacy/pipelines/pipelines.py: WithInputCopy, ParallelPipeline", "src/python/ficus/legacy/pipelines/mutations/mutations_parts.py: PreprocessEventsNames"]}
{"id": "C44", "title": "Issued colours are pairwise distinct between resets", "statement": "All colours issued by the unique colour provider since the last reset are pairwise distinct, the provider raises OverflowError exactly when all 256^3 colours are marked used, and distinct RGB triples have distinct hexadecimal names.", "quantifier": "for every sequence of requests and every stream of random triples", "why_tests_cant": "randomised histories", "anchors": ["src/python/ficus/legacy/util.py: RandomUniqueColorsProvider, ColorsProvider"]}
{"id": "C45", "title": "Cached colours are injective", "statement": "Within one context, different names never share a colour. (Desired; fails because executing a nested pipeline resets the provider while cached colours survive.)", "quantifier": "for every history of colour requests and nested pipeline executions", "why_tests_cant": "depends on histories of resets and random draws", "anchors": ["src/python/ficus/legacy/util.py: RandomUniqueColorsProvider.reset", "src/python/ficus/legacy/pipelines/pipelines.py: Pipeline.execute"]}
{"id": "C46", "title": "The until-no-more loop decreases or stops", "statement": "The loop that repeatedly discovers activities and replaces their instances ends for every log, at the latest after one round more than the log has events. It ends exactly with the first round that finds no instance or only instances of one event; every other round makes the log smaller by the events it replaced. After any number of rounds the log expands to the same underlying events.", "quantifier": "for every log, every answer of the suffix tree, every class extractor, filter and configuration", "why_tests_cant": "loop over unbounded number of rounds", "anchors": ["src/python/ficus/legacy/pipelines/analysis/high_level.py: DiscoverActivitiesInstancesFromRepeatsUntilNoMore", "src/python/ficus/legacy/pipelines/analysis/patterns/patterns_parts.py: DiscoverActivitiesFromPatterns"]}
{"id": "C47", "title": "Remote pipeline callbacks run for exactly their own results", "statement": "While a remote pipeline runs, a callback is executed for a partial result if and only if the result's identifier belongs to a part of the pipeline (at any nesting) that carries a callback; results are handled in order and processing stops at the first final result.", "quantifier": "for every pipeline and every stream of responses", "why_tests_cant": "all response streams", "anchors": ["src/python/ficus/grpc_pipelines/grpc_pipelines.py: Pipeline2.execute"]}
{"id": "C48", "title": "The remote result is released exactly on success", "statement": "The stored remote result is dropped exactly once if the last message is a successful final result and not otherwise, and the last message looked at (the first final result, else the last of the stream) is returned to the caller; a stream without any message raises.", "quantifier": "for every stream of responses", "why_tests_cant": "all response streams including empty and truncated ones", "anchors": ["src/python/ficus/grpc_pipelines/grpc_pipelines.py: Pipeline2.execute"]}
{"id": "C49", "title": "Executing a remote pipeline leaves the caller's context dictionary unchanged", "statement": "Running the same pipeline twice with the same initial context uses the same backend address. (Desired; fails: the 'backend' entry is deleted from the caller's dictionary.)", "quantifier": "for every initial context", "why_tests_cant": "history property across two calls", "anchors": ["src/python/ficus/grpc_pipelines/grpc_pipelines.py: Pipeline2.execute"]}
{"id": "C50", "title": "Copies of events and logs are independent", "statement": "A deep copy of a log shares no mutable event with the original, so mutating the copy leaves the original's events unchanged and vice versa; a shallow copy shares them; copying preserves name sequences. (Trace attributes and log global values are dropped by both copies; this is proved.)", "quantifier": "for every log in every heap and every later mutation", "why_tests_cant": "aliasing over all heaps", "anchors": ["src/python/ficus/legacy/log/event_log.py: MyEvent.__deepcopy__, MyTrace.__deepcopy__, MyEventLog.__deepcopy__"]}
{"id": "C51", "title": "The indirect position entropy filter makes progress", "statement": "Every iteration of the indirect position entropy filter (and of its till-end variant) removes one event class that occurs, is touchable and leaves the smallest total position entropy. (Desired; fails for logs with one non-empty trace and two event classes: all totals are nan, nothing is chosen, and the till-end variant never terminates.)", "quantifier": "for every log, threshold, budget and untouchable predicate", "why_tests_cant": "non-termination and nan behaviour over all logs; a test can only time out", "anchors": ["src/python/ficus/legacy/filtering/event_log_filters.py: next_event_remove_pos_entropy_indirect, filter_events_pos_entropy_indirect, filter_events_pos_entropy_indirect_till_end"]}
{"id": "C52", "title": "Direct removal till the end lists every event class exactly once", "statement": "Direct removal till the end terminates and returns every event class of the log exactly once, each with the largest metric at its removal and with the total metric before the removal (or the difference of totals); it raises ValueError exactly when an untouchable event class keeps the log from becoming empty, or when there are traces but no events at all.", "quantifier": "for every log, every metric, both kinds of recording", "why_tests_cant": "loop over unbounded number of iterations with changing logs", "anchors": ["src/python/ficus/legacy/filtering/event_log_filters.py: _do_filter_by_metric_direct_till_end, filter_events_pos_entropy_direct_till_end"]}
{"id": "C53", "title": "Promotion collects exactly the equivalent lower level instances", "statement": "With one extractor per level and extractors that form a hierarchy, the log created for an activity name holds exactly the instances of the desired level and those instances of lower levels whose top level classes equal the top level classes of the activity's repeat set; a wrong number of extractors fails. (Without the hierarchy even an occurrence of the repeat set itself can be lost; this is proved.)", "quantifier": "for every log, instance lists, desired level and hierarchical list of extractors", "why_tests_cant": "relates cumulative renaming with a single extraction over all hierarchies", "anchors": ["src/python/ficus/legacy/analysis/patterns/event_log_patterns.py: create_logs_for_activities_with_promote"]}
{"id": "C54", "title": "Splitting activities by level is a partition in ascending order", "statement": "Activities split by level come in strictly ascending level order and each level lists all its activities in their original order; asking for a level without activities raises KeyError; selecting a level in instance lists keeps exactly the instances of that level.", "quantifier": "for every list of activities", "why_tests_cant": "all lists", "anchors": ["src/python/ficus/legacy/analysis/patterns/util.py: split_activities_by_levels_dict, split_activities_by_level, get_activities_for_level, select_traces_activities_for_activity_level"]}
{"id": "C55", "title": "Activity names identify sets of classes", "statement": "The generated name of an activity depends only on the set of classes of the events of its repeat, and two non-empty repeats have the same name only if they have the same set of classes, provided no class contains '::' or ends with ':'. (Otherwise names collide; this is proved.)", "quantifier": "for every trace, repeat and extractor", "why_tests_cant": "injectivity over all names", "anchors": ["src/python/ficus/legacy/analysis/patterns/util.py: create_activity_name_from_trace, create_activity_name_from_log"]}
{"id": "C56", "title": "In-place mutators change every event exactly as often as the log refers to it", "statement": "PreprocessEvents, PreprocessEventsNames, ApplyClassExtractor and RemoveLifecycleTransitionsAttributes change event objects in place: afterwards, in every log that shares an event object, the event's payload is the mutation applied as often as the object occurs in the mutated log (once, if no object occurs twice), all other events and attributes are as before; renaming raises KeyError at the first event without a name and leaves the earlier ones renamed. AddArtificialStartEndEvents adds one start and one end event to every trace of the log. Filters create new logs and traces that share the kept event objects.", "quantifier": "for every heap of events, traces and logs with arbitrary sharing, every mutation", "why_tests_cant": "aliasing over all heaps", "anchors": ["src/python/ficus/legacy/mutations/event_log_mutations.py: preprocess_events, preprocess_event_names_inplace, remove_lifecycle_attribute, _filter_events", "src/python/ficus/legacy/pipelines/mutations/mutations_parts.py: ApplyClassExtractor, AddArtificialStartEndEvents"]}
{"id": "C57", "title": "Discovering activities at several levels only adds", "statement": "DiscoverActivitiesForSeveralLevels, whether or not it raises, leaves the log alone, keeps every instance found before, keeps the instances of every trace disjoint and ordered, and appends to the activities one forest per handled level whose nodes carry that level and fresh identities; each level's forest is built from the repeats of the whole log or of the events outside all instances, according to the mode. It raises nothing when the search for repeats raises nothing and the mode is a known one; an unknown mode raises ValueError.", "quantifier": "for every log, list of class extractors, older activities and instances, every search for repeats", "why_tests_cant": "iteration over an arbitrary number of levels with state carried from level to level", "anchors": ["src/python/ficus/legacy/pipelines/analysis/high_level.py: AdjustWithActivitiesFromUnattachedEvents, DiscoverActivitiesForSeveralLevels", "src/python/ficus/legacy/pipelines/analysis/patterns/patterns_parts.py: DiscoverActivitiesInUnattachedSubTraces"]}
{"id": "C58", "title": "Discovery on a copied context leaves the activities of the original alone", "statement": "Running the discovery at several levels on one context does not change the activities shown by any other context. (This holds for contexts whose list of activities is another object; a copied context shares the list object and the discovery extends it in place, so that the original shows the new activities; this is proved.)", "quantifier": "for every pair of contexts with arbitrary sharing", "why_tests_cant": "aliasing between contexts", "anchors": ["src/python/ficus/legacy/pipelines/analysis/high_level.py: AdjustWithActivitiesFromUnattachedEvents", "src/python/ficus/legacy/pipelines/contexts/part_results.py: PipelinePartResult.copy"]}
{"id": "C59", "title": "Instances added for a level refer to activities of that level", "statement": "An instance that a round of the discovery at several levels adds refers to an activity whose classes contain all its events under the round's class extractor, and that activity has the round's level. (The second half holds when no older activity knows a class of the trace; otherwise an activity of an older level can be chosen; this is proved.)", "quantifier": "for every log, activities, instances, class extractor and search for repeats", "why_tests_cant": "interaction of an arbitrary number of activities of several levels", "anchors": ["src/python/ficus/legacy/pipelines/analysis/high_level.py: AdjustWithActivitiesFromUnattachedEvents", "src/python/ficus/legacy/analysis/patterns/event_log_patterns.py: add_unattached_activities"]}
{"id": "C60", "title": "The file of activity names lists every name of a level once", "statement": "SaveAllActivitiesNames writes one section per level of a top activity, in ascending order; a section lists no name twice, only names of nodes at or below the top activities of that level, and all of them. (The last clause holds when nodes with the same name have children with the same names; otherwise names are lost; this is proved.)", "quantifier": "for every forest of activities", "why_tests_cant": "traversal of arbitrary forests with a visited set keyed by name", "anchors": ["src/python/ficus/legacy/pipelines/analysis/patterns/patterns_parts.py: SaveAllActivitiesNames", "src/python/ficus/legacy/analysis/patterns/util.py: split_activities_by_level"]}
{"id": "C61", "title": "Every activity node is printed with its hash exactly once", "statement": "PrintActivitiesNamesToHashes prints one line per node of the forest, with the hash of its name and its name, layer by layer from the top activities on.", "quantifier": "for every forest of activities", "why_tests_cant": "traversal of forests of any shape and depth", "anchors": ["src/python/ficus/legacy/pipelines/analysis/patterns/patterns_parts.py: PrintActivitiesNamesToHashes"]}
{"id": "C62", "title": "The files about instances are faithful", "statement": "SaveAllActivitiesInstancesNames writes exactly one line for every node that has an instance, in order of the first instances, with pairwise different unique names. The text of WriteActivitiesInstancesIndices determines the list of instances of every trace: identity of the node, start and length.", "quantifier": "for all lists of instances", "why_tests_cant": "injectivity of a text format over all inputs", "anchors": ["src/python/ficus/legacy/pipelines/analysis/patterns/patterns_parts.py: SaveAllActivitiesInstancesNames, WriteActivitiesInstancesIndices"]}
{"id": "C63", "title": "The percentage of unattached events is exact", "statement": "For instances that fit the log, CalculatePercentageOfUnattachedEvents prints the number of events in no instance divided by the number of events: between 0 and 1, 0 exactly if every event is in an instance, 1 exactly if there are no instances, and a message instead for a log without events. PrintUnattachedEvents prints exactly the names of the events in no instance, each once.", "quantifier": "for every log and fitting lists of instances", "why_tests_cant": "counting over arbitrary placements", "anchors": ["src/python/ficus/legacy/pipelines/analysis/patterns/patterns_parts.py: CalculatePercentageOfUnattachedEvents, PrintUnattachedEvents"]}
{"id": "C64", "title": "Events are tagged with the activity that contains them", "statement": "AddActivityNameToAllEvents gives every event the attribute 'activity' with the unique name of the (last) instance of its trace that contains it, leaves events in no instance and everything outside the log alone, and raises IndexError exactly if an instance reaches beyond its trace.", "quantifier": "for every heap of events, traces and logs in which no event object occurs twice in the log, and all lists of instances", "why_tests_cant": "aliasing and overlapping intervals over all heaps", "anchors": ["src/python/ficus/legacy/pipelines/analysis/patterns/patterns_parts.py: AddActivityNameToAllEvents"]}
{"id": "C65", "title": "Filling the gaps covers every event", "statement": "full_fill_activities returns, for every trace, the given instances together with the instances that the creator makes of the events of each maximal gap, sorted by descending start; a creator that makes an instance of all the events given to it leaves no event uncovered. (The last clause fails: created instances keep positions relative to their gap; this is proved.)", "quantifier": "for every log, all fitting lists of instances and every creator", "why_tests_cant": "all placements of instances and gaps, and arbitrary creators", "anchors": ["src/python/ficus/legacy/analysis/patterns/patterns_discovery.py: full_fill_activities"]}
{"id": "C66", "title": "Petri nets arrive as they were sent", "statement": "from_grpc_petri_net gives a net with exactly the places, transitions, arcs (with tokens), data and markings of the message, in the same order; of entries with the same identifier the last is kept; an unset marking cannot be told from an empty one.", "quantifier": "for every message", "why_tests_cant": "all nets, including repeated identifiers and unset fields", "anchors": ["src/python/ficus/grpc_pipelines/context_values.py: from_grpc_petri_net, from_grpc_transition, try_from_grpc_marking", "src/python/ficus/legacy/discovery/petri_net.py: PetriNet"]}
{"id": "C67", "title": "The drawing of a Petri net shows the net", "statement": "The drawing declares one node per place and per transition (distinct exactly if no identifier is shared), one edge per arc with the right direction, order, multiplicity and annotation label, with ends that are declared exactly if the arcs refer to the net; initially marked places, finally marked places, other places and transitions have the documented appearance. Tokens, and a final marking of an initially marked place, cannot be seen; this is proved.", "quantifier": "for every net message, every annotation and both settings of the place names", "why_tests_cant": "structural faithfulness over all nets", "anchors": ["src/python/ficus/legacy/discovery/petri_net.py: draw_petri_net", "src/python/ficus/grpc_pipelines/discovery_parts.py: ViewPetriNet2, AnnotatePetriNet2", "src/python/ficus/grpc_pipelines/context_values.py: from_grpc_count_annotation, from_grpc_frequency_annotation"]}
{"id": "C68", "title": "Graphs are drawn as they were sent", "statement": "The graph object equals the message; the drawing has exactly one labelled circle per node and one labelled edge per edge between the right nodes; the nodes are distinct exactly if the identifiers are, and every edge connects declared nodes exactly if the edges of the message do.", "quantifier": "for every graph message", "why_tests_cant": "structural faithfulness over all graphs", "anchors": ["src/python/ficus/legacy/discovery/graph.py: draw_graph", "src/python/ficus/grpc_pipelines/context_values.py: from_grpc_graph", "src/python/ficus/grpc_pipelines/discovery_parts.py: ViewGraphLikeFormalismPart2"]}
{"id": "C69", "title": "The drawn tree of activities or classes is the tree", "statement": "build_graph declares every node name of the forest exactly once and draws exactly the edges from children to parents (and to the root node if wanted). This holds if nodes with the same name have children with the same names and no name has a colon; otherwise children of the second node are lost, and edges of names with a colon go to other nodes; both are proved.", "quantifier": "for every forest of nodes", "why_tests_cant": "forests of any shape with sharing of names", "anchors": ["src/python/ficus/legacy/analysis/patterns/patterns_graphs.py: build_graph"]}
{"id": "C70", "title": "The canvas shows the log of colours from the backend", "statement": "The canvas drawing fails exactly for an empty log (ValueError); otherwise rectangle j of trace k is seen in row k after the widths of the rectangles before it, every other point above the legend is white, and all rectangles lie inside the area between the axes, labelled with the number of traces and the longest trace. (Positions in the message are ignored, and the legend of a narrow diagram is cut off: these are proved as disagreements.)", "quantifier": "for every log of coloured rectangles, every title and all rational scales", "why_tests_cant": "every point of the picture, over arbitrary logs and scales", "anchors": ["src/python/ficus/legacy/analysis/event_log_analysis_canvas.py: draw_colors_event_log_canvas", "src/python/ficus/grpc_pipelines/context_values.py: from_grpc_colors_log", "src/python/ficus/grpc_pipelines/grpc_pipelines.py: PipelinePart2WithCanvasCallback"]}
{"id": "C71", "title": "The matplotlib diagram shows the log of colours", "statement": "draw_colors_event_log hands to the plot rectangles such that a colour is seen at a point exactly if the point is in a rectangle of that colour of the trace of that row; the legend has the names, cut to fifty characters, in the order of first occurrence; the exact conditions of success and the exceptions otherwise. (Names that agree in fifty characters are merged in the legend.)", "quantifier": "for every log of coloured rectangles and all natural scales", "why_tests_cant": "every point of the picture over arbitrary logs", "anchors": ["src/python/ficus/legacy/analysis/event_log_analysis.py: draw_colors_event_log, _draw_traces_diversity_like_diagram_internal"]}
{"id": "C72", "title": "Events are told apart by their colours", "statement": "The traces diversity diagram and the diagram of placements show every event in its row at its place in the colour cached for its name (black for names that do not satisfy the predicate); cached colours are kept, the legend explains the colours, and different names have different colours. (The last clause fails after a reset of the provider and for black; it holds if all cached colours are distinct and marked as used.)", "quantifier": "for every log, every state of the colours, every predicate and all scales", "why_tests_cant": "all states of the shared colour provider, every point of the picture", "anchors": ["src/python/ficus/legacy/analysis/event_log_analysis.py: draw_traces_diversity_diagram, draw_placements_of_events, _draw_traces_diversity_like_diagram"]}
{"id": "C73", "title": "Diagrams of activities show the instances at their places", "statement": "For instances well placed in their traces, the full (short) diagram shows the parts of every trace, i.e. the instances and the maximal gaps, in order and with their lengths (with equal widths); gaps are black; instances with the same set of events have the same colour; the legend has the names; failures are characterised. (Different activities with the same events share a colour, and a gap at the end is not in the legend.)", "quantifier": "for every log, all well placed instances, every state of the colours, both kinds of diagram", "why_tests_cant": "all placements of instances in all traces", "anchors": ["src/python/ficus/legacy/analysis/patterns/patterns_graphs.py: draw_full_activities_diagram, draw_short_activities_diagram, _do_draw_activity_diagram, _sub_traces_draw_func"]}
{"id": "C74", "title": "The placement diagram of one activity", "statement": "For well placed instances the diagram shows row by row exactly the instances of the named activity at their places and black elsewhere; with different colours the instances of one trace have pairwise distinct colours, otherwise a trace has one colour and different traces have different ones; no colour is cached. (Drawing with different colours empties the marks of used colours of the shared provider.)", "quantifier": "for every log, all well placed instances, every name, every state of the colours", "why_tests_cant": "all placements and all states of the shared provider", "anchors": ["src/python/ficus/legacy/analysis/patterns/patterns_graphs.py: draw_activity_placement_diagram", "src/python/ficus/legacy/util.py: SingleColorProvider, RandomUniqueColorsProvider"]}
{"id": "C75", "title": "The diagram of patterns shows the patterns at their places", "statement": "draw_patterns shows every found pattern at its place in its trace, and patterns with equal hashes of events in one colour. (It holds for patterns that do not overlap; overlapping patterns are drawn side by side beyond the end of the trace.)", "quantifier": "for every log, all lists of well placed patterns, every event hash and every state of the colours", "why_tests_cant": "all placements of patterns, including overlapping ones", "anchors": ["src/python/ficus/legacy/analysis/patterns/patterns_graphs.py: draw_patterns, _sub_traces_draw_func"]}
{"id": "C76", "title": "Messages determine the remote parts", "statement": "Two remote pipelines are converted to the same messages exactly when they agree in everything that the messages keep: all parameters but those that only callbacks use, the strategy (tandem arrays) or the length (repeats) of DiscoverActivitiesFromPatterns2, the maximal array length of DiscoverActivitiesUntilNoMore2, and the digits of floats beyond 32 bits. (That the maximal array length is dropped is a disagreement with the signature.)", "quantifier": "for all pipelines of all remote parts, nested to any depth, with all parameters", "why_tests_cant": "all combinations of parts and parameters; two inputs are compared", "anchors": ["src/python/ficus/grpc_pipelines/activities_parts.py", "src/python/ficus/grpc_pipelines/patterns_parts.py", "src/python/ficus/grpc_pipelines/discovery_parts.py", "src/python/ficus/grpc_pipelines/drawing_parts.py", "src/python/ficus/grpc_pipelines/filtering_parts.py", "src/python/ficus/grpc_pipelines/xes_parts.py", "src/python/ficus/grpc_pipelines/mutation_parts.py", "src/python/ficus/grpc_pipelines/util_parts.py: to_grpc_part"]}
{"id": "C77", "title": "Configurations that are sent are regular", "statement": "Every configuration in the messages of a remote pipeline, also in nested pipelines, has no key twice, a value of the one kind that belongs to its key, and only numbers of 32 bits.", "quantifier": "for all pipelines of all remote parts, nested to any depth, with all parameters", "why_tests_cant": "all combinations of parts and optional parameters", "anchors": ["src/python/ficus/grpc_pipelines/grpc_pipelines.py: append_uint32_value, append_enum_value, append_string_value, _append_context_value", "src/python/ficus/grpc_pipelines/activities_parts.py: to_grpc_part"]}
{"id": "C78", "title": "When remote pipelines cannot be sent", "statement": "The conversion of a remote pipeline succeeds exactly when every part in it, at any depth, is a part, is not a PrintEventlogInfoBeforeAfter, and has only integers from 0 to 2^32 - 1 among the sent ones; otherwise it raises ValueError for such an integer or TypeError for such an object, and the first part that fails decides.", "quantifier": "for all pipelines of all remote parts, nested to any depth, with all parameters", "why_tests_cant": "exact characterisation of failure over unbounded nesting", "anchors": ["src/python/ficus/grpc_pipelines/grpc_pipelines.py: Pipeline2._create_grpc_pipeline, to_grpc_pipeline", "src/python/ficus/grpc_pipelines/util_parts.py: PrintEventlogInfoBeforeAfter"]}
{"id": "C79", "title": "The initial context arrives as given", "statement": "The initial context of a remote pipeline is sent exactly when every value has a message, and then has the keys in their order with the values unchanged (floats at 32 bits); otherwise the first value that has none decides the error. Logs of names and event log infos are read back as they were sent. (Every EventLogInfo is rejected with TypeError.)", "quantifier": "for all contexts with values of all classes", "why_tests_cant": "all values including integers out of range and logs of any size", "anchors": ["src/python/ficus/grpc_pipelines/context_values.py: StringContextValue, HashesLogContextValue, NamesLogContextValue, EventLogInfo, from_grpc_names_log, from_grpc_event_log_info", "src/python/ficus/grpc_pipelines/grpc_pipelines.py: Pipeline2._create_initial_context"]}
{"id": "C80", "title": "The backend reads what the user asked for", "statement": "From the messages of a remote pipeline the backend (reading names and keys as its Rust code does) gets exactly the parts, parameters, nested pipelines and requested values that the user's parts stand for, unless a part at some depth is one that it cannot serve: tandem kinds in DiscoverActivitiesUntilNoMore2 (the length is not sent) and in DiscoverActivitiesForSeveralLevels2 with at least one class (the backend drops the length), and PrintNumberOfUnderlyingEvents2 (the value is not sent back). Adjusting mode and least number of unattached events of DiscoverActivitiesUntilNoMore2 have no effect.", "quantifier": "for all pipelines of all remote parts, nested to any depth, with all parameters", "why_tests_cant": "agreement of two programs on all combinations of parts and parameters", "anchors": ["src/python/ficus/grpc_pipelines/activities_parts.py, patterns_parts.py, discovery_parts.py, drawing_parts.py, filtering_parts.py: to_grpc_part", "src/python/ficus/grpc_pipelines/constants.py", "src/rust/ficus_backend/src/grpc/backend_service.rs: to_pipeline, find_default_part", "src/rust/ficus_backend/src/grpc/converters.rs: put_into_user_data, convert_to_grpc_context_value", "src/rust/ficus_backend/src/pipelines/*_parts.rs"]}
{"id": "C81", "title": "What the local parts need and change", "statement": "For every class of local parts there is one line of a table: the values it needs in the context and whether it shows, puts values into the context, derives a new context or resets it. Every run of a part follows its line, every pipeline (also nested: parallel, on a copy, conditional, before and after, for each activity log, several levels) does what the lines of its parts say one after another, and no other context is changed. Whether a straight pipeline runs to the end, and with which values, can be computed from the table; a missing value is a ValueError. The entropy filters, the removal by name and the preprocessing of names forget all values but the log. Starting parts give a context with exactly a log, or refuse.", "quantifier": "for all pipelines of all local part classes, nested to any depth, all contexts and all functions called by the parts", "why_tests_cant": "all orders and nestings of some seventy classes; aliasing of contexts", "anchors": ["src/python/ficus/legacy/pipelines/filtering/filter_parts.py", "src/python/ficus/legacy/pipelines/analysis/analysis_parts.py", "src/python/ficus/legacy/pipelines/start/start_parts.py", "src/python/ficus/legacy/pipelines/discovery/discovery_parts.py", "src/python/ficus/legacy/pipelines/analysis/patterns/patterns_graph_parts.py", "src/python/ficus/legacy/pipelines/mutations/mutations_parts.py", "src/python/ficus/legacy/pipelines/serialization/pipeline_parts.py", "src/python/ficus/legacy/pipelines/analysis/patterns/patterns_parts.py", "src/python/ficus/legacy/pipelines/analysis/high_level.py: execute"]}
{"id": "C82", "title": "Maximal repeats are reported exactly", "statement": "For every trace find_maximal_repeats reports every maximal repeat (a word that occurs with two different left and two different right neighbours, the ends of the trace counting as such) of its classes exactly once, by an occurrence inside of the trace, and nothing else; every occurrence of every repeated word lies inside of an occurrence of a reported one. Classes of one trace with equal hashes are taken for one class.", "quantifier": "for every log, every class extractor and every correct suffix tree", "why_tests_cant": "all traces of all lengths; the reports are a set of words defined by all occurrences", "anchors": ["src/python/ficus/legacy/analysis/patterns/event_log_patterns.py: find_maximal_repeats, _do_find_maximal_repeats"]}
{"id": "C83", "title": "Super maximal repeats are the repeats that are not part of longer ones", "statement": "For every trace find_super_maximal_repeats reports exactly the words of classes that occur at least twice and are not part of a longer word that does, each once, as a sublist of the maximal repeats. This is for traces whose classes have different hashes; classes of one trace with equal hashes are taken for one class.", "quantifier": "for every log whose classes have different hashes per trace (in terms of hashes: for every log), every class extractor and every correct suffix tree", "why_tests_cant": "the code tests maximal repeats against each other; that this decides about all repeated words is a theorem about all traces", "anchors": ["src/python/ficus/legacy/analysis/patterns/event_log_patterns.py: find_super_maximal_repeats, _do_find_super_maximal_repeats"]}
{"id": "C84", "title": "Near super maximal repeats are exact and independent of the order of sets", "statement": "find_near_super_maximal_repeats never fails and reports for every trace, each once, exactly the maximal repeats with an occurrence that lies in no occurrence of another maximal repeat, whatever the order in which sets are iterated. They include the super maximal repeats and are among the maximal ones, and every occurrence of every repeated word lies inside of an occurrence of one of them. This is for traces whose classes have different hashes.", "quantifier": "for every log, every class extractor, every correct suffix tree and every iteration order of sets", "why_tests_cant": "set iteration order and greedy marking of intervals over all traces", "anchors": ["src/python/ficus/legacy/analysis/patterns/event_log_patterns.py: find_near_super_maximal_repeats, _do_find_near_super_maximal_repeats"]}
{"id": "C85", "title": "Pictures of datasets show every row once, in the colour of its cluster", "statement": "After a clustering part the projection chosen by the user is given exactly the numbers of the dataset, row by row (but without a column that is itself called cluster_labels), and the picture has one cloud per cluster, in the order of the labels. Every row is one point of exactly one cloud, at its own coordinates (with 0 as the second one if there is only one), under the name of its cluster and in the colour sent for it; clusters with different colours are drawn in different colours. Without labels all rows are one cloud. Axes, legend and viewer are set once, and the picture is shown, or saved under the path and closed. A message whose sizes do not match is refused with ValueError before anything is drawn.", "quantifier": "for all datasets, labels, colours, numbers of components and projections", "why_tests_cant": "the picture depends on the whole dataset; row, label and colour are matched by position through three transpositions", "anchors": ["src/python/ficus/grpc_pipelines/context_values.py: from_grpc_ficus_dataset, from_grpc_labeled_dataset", "src/python/ficus/grpc_pipelines/activities_parts.py: ClusterizationPartWithVisualization2.execute_callback, get_visualization_function, VisualizeTracesActivities2.execute_callback", "src/python/ficus/legacy/analysis/event_log_analysis.py: visualize_dataset, draw_pca_results, draw_scatter_plot_for_dataset_visualization, get_values_to_visualize"]}
{"id": "C86", "title": "Histograms of variants and entropies show what was counted", "statement": "The histograms of at least two logs are drawn in the smallest square grid with room for all, each log in a cell of its own under its own name, with one bar for every variant, as high as the variant has traces. (A single log raises TypeError, none ValueError, and the function for one log always AttributeError.) The histogram of entropies has one bar of its own new colour for every event name of the log, as high as its entropy; its legend lists every event once, with its bar, name and value, by falling entropy.", "quantifier": "for all lists of logs, names and paths, all logs and all states of the colour provider", "why_tests_cant": "positions, bin edges and sorting over all numbers of logs, variants and equal values", "anchors": ["src/python/ficus/legacy/analysis/event_log_analysis.py: plot_logs_traces_histograms, _create_array_for_hist, _do_paint_hist, draw_traces_histogram, draw_events_entropy_histogram"]}
{"id": "C87", "title": "Conversions between logs and pm4py logs", "statement": "A log made from a pm4py log reads exactly like it (events, keys in order, trace and log attributes, extensions, classifiers, properties, omni-present attributes as global values). A pm4py log made from a log has the same traces with the same payloads and none of the other attributes, so discovery sees exactly the events. The original is unchanged, the result has a new object for every trace and every event in every position, even where the original uses one object twice, and from then on operations on one of the two never show in the other. Both round trips keep exactly the traces of events; to pm4py and back gives the original log exactly if it has no other attributes at all.", "quantifier": "for all heaps of logs, traces and events, also with shared objects, and all histories of later operations", "why_tests_cant": "aliasing: a missing copy shows only after a later operation on a shared object", "anchors": ["src/python/ficus/legacy/log/pm4py_converters.py: from_pm4py_log, to_pm4py_log, pm4py_event_to_my_event, my_event_to_pm4py_event"]}
{"id": "C88", "title": "Pipelines of log parts compute what their parts mean", "statement": "Removing events, renaming them, applying class extractors, adding artificial events, keeping traces by length or variant and filtering by entropy can be put into pipelines in any number and order: although some parts share objects with their input and others change them in place, the pipeline computes on the log exactly what its parts mean one after the other on values (the same log, the same exception, or a loop that has not ended). The result can be passed on. Removing parts amount to one removal of everything that one of them removes, so their order does not matter.", "quantifier": "for all pipelines, parts, arguments and logs that use no trace or event object twice, and all numbers of iterations", "why_tests_cant": "the result depends on aliasing between the logs along all possible sequences of parts", "anchors": ["src/python/ficus/legacy/pipelines/mutations/mutations_parts.py: RemoveEventFromLogByName, RemoveEventsFromLogByNames, RemoveEventsByPredicate, PreprocessEventsNames, PreprocessEvents, ApplyClassExtractor, RemoveLifecycleTransitionsAttributes, AddArtificialStartEndEvents", "src/python/ficus/legacy/pipelines/filtering/filter_parts.py: FilterTracesByCount, FilterTracesByVariants, FilterEventsByPositionalEntropyDirect, FilterEventsByPositionalEntropyInDirect, FilterEventsByDfgEntropyDirect, FilterEventsByDfgEntropyInDirect"]}
{"id": "C89", "title": "Which logs a pipeline may change", "statement": "A pipeline of log parts changes no log that shares no trace and no event with the log it is run on, also when it raises; a pipeline without parts in place changes no existing log at all; and any pipeline run on a deep copy changes no log that existed before and computes what it means on the original (without trace attributes and global values). Otherwise the log that was passed in may change although another one is returned: after FilterTracesByCount artificial events appear in the caller's traces, and after RemoveEventFromLogByName a class extractor renames the caller's events.", "quantifier": "for all pipelines, arguments, heaps of logs (also with shared objects) and all numbers of iterations", "why_tests_cant": "a change of a shared object shows only in another log, and only for some sequences of parts", "anchors": ["src/python/ficus/legacy/pipelines/mutations/mutations_parts.py", "src/python/ficus/legacy/pipelines/filtering/filter_parts.py", "src/python/ficus/legacy/log/event_log.py: MyEventLog.__deepcopy__", "src/python/ficus/legacy/mutations/event_log_mutations.py"]}
{"id": "C90", "title": "Logs with the same content compare equal", "statement": "log == other holds for all logs with the same traces of events and the same attributes, extensions, classifiers and properties, whatever the insertion orders; == is an equivalence relation and equal logs have equal hashes. A deep copy and a shallow copy compare equal to the log, and the shallow copy stays equal whatever is done to traces and events later.", "quantifier": "for all logs, heaps of logs, histories of operations, texts of values and hash functions of pairs", "why_tests_cant": "equality is by hashes over all insertion orders, and the hash of pairs is that of the interpreter", "anchors": ["src/python/ficus/legacy/log/event_log.py: MyEventLog.__hash__, MyEventLog.__eq__, __copy__, __deepcopy__", "src/python/ficus/legacy/util.py: combine_list_of_hashes, combine_two_hashes, calculate_dict_hash"]}
{"id": "C91", "title": "Equal logs have the same content", "statement": "log == other holds only for logs with the same content. (Desired; fails: the attributes of traces and the global values are not compared at all, an empty log equals a log with one empty trace, and hashes of events collide.)", "quantifier": "for all pairs of logs", "why_tests_cant": "a statement about all pairs of logs and about collisions of hashes", "anchors": ["src/python/ficus/legacy/log/event_log.py: MyEventLog.__hash__, MyEventLog.__eq__", "src/python/ficus/legacy/util.py: combine_list_of_hashes"]}
{"id": "C92", "title": "Where exported nets and graphs are", "statement": "draw_petri_net and draw_graph with an export path that names a directory leave the picture of exactly this net or graph at the path, in the format of its extension, making missing directories, and change no other file except the temporary ones; a failed export does not touch the path. The exact conditions of success are given: in particular a path without a directory raises FileNotFoundError, an unknown format fails after the directories were made. The source stays in the temporary directory after every call, and a path that is a directory gets the picture under the temporary name.", "quantifier": "for all graphs, engines, paths, contents of the disk and series of exports", "why_tests_cant": "the outcome depends on every combination of path and state of the disk; leftovers show only over many calls", "anchors": ["src/python/ficus/legacy/discovery/petri_net.py: _draw_graph_like_formalism, draw_petri_net, _create_temp_file_name", "src/python/ficus/legacy/discovery/graph.py: draw_graph"]}
{"id": "C93", "title": "Saved logs can be read back", "statement": "save_event_log_to_xes writes the log to the path and changes no other file; a log that cannot be written changes no file; reading the path gives the log back (within the limits of C05), also after other logs were saved elsewhere; reading a missing path raises FileNotFoundError. The exact conditions of success are given: in particular a path without a directory raises FileNotFoundError.", "quantifier": "for all logs, paths and contents of the disk", "why_tests_cant": "the outcome depends on every combination of log, path and state of the disk", "anchors": ["src/python/ficus/legacy/log/functions.py: save_event_log_to_xes, read_log_from_xes"]}
{"id": "C94", "title": "Graphs of activities by levels have their own files", "statement": "DrawActivitiesGraphByEventClassLevels writes for each level the graph of exactly the activities of this level to files of its own, whose names are never shared by two levels, and changes no other file; without a path all levels are displayed in ascending order. The file that is named after the path and the level is the source of the graph; the picture has .png appended. Without a path all levels are written to one file, which in the end holds the highest level.", "quantifier": "for all activities, levels, paths and contents of the disk", "why_tests_cant": "clashes of names depend on all paths and levels", "anchors": ["src/python/ficus/legacy/pipelines/analysis/patterns/patterns_graph_parts.py: default_activities_level_save_path_mutator, DrawActivitiesGraphByEventClassLevels, DrawGraph", "src/python/ficus/legacy/analysis/patterns/patterns_graphs.py: _do_draw_graph"]}
{"id": "C95", "title": "Serialized graphs identify graphs", "statement": "serialize_graphviz_graph gives the same text for two graphs exactly if they have the same statements, whatever the order of the statements and the names of the graphs. (Fails for labels with line feeds.)", "quantifier": "for all graphs", "why_tests_cant": "a statement about all pairs of graphs and all orders of statements", "anchors": ["src/python/ficus/legacy/pipelines/analysis/patterns/patterns_graph_parts.py: serialize_graphviz_graph, SerializeGraph"]}
{"id": "C96", "title": "Figures can be saved under every name", "statement": "A save path works alike for all figures: the figure is at the path, missing directories are made. (Fails: histograms of traces and entropies and pictures of data sets need an existing directory, diagrams of traces need a name with a directory; a name without an extension gets .png.)", "quantifier": "for all figures, paths and contents of the disk", "why_tests_cant": "the outcome depends on every combination of path and state of the disk", "anchors": ["src/python/ficus/legacy/analysis/event_log_analysis.py: draw_traces_histogram, plot_logs_traces_histograms, _draw_traces_diversity_like_diagram_internal, draw_events_entropy_histogram, visualize_dataset"]}
{"id": "C97", "title": "What the discovery of activities finds", "statement": "DiscoverActivitiesInstancesFromRepeats and DiscoverActivitiesFromTandemArrays never raise. The activities correspond one to one to the different sets of classes of the patterns of the searched log (maximal, super maximal or near super maximal repeats of the traces or of the merged trace; maximal or primitive tandem arrays). The instances of every trace are the unique greedy segmentation by these patterns. For repeats of all kinds the instances are at the same places, and an event is covered exactly if its class occurs at least twice in one of the traces (merged: in the whole log). A loop that tandem arrays miss is not covered at all.", "quantifier": "for all logs whose hashes do not collide, kinds of patterns, bounds, extractors, names and suffix trees", "why_tests_cant": "a statement about all patterns of all logs and about all segmentations, through five stages that communicate by hashes", "anchors": ["src/python/ficus/legacy/pipelines/analysis/high_level.py: DiscoverActivitiesFromTandemArrays, DiscoverActivitiesInstancesFromRepeats", "src/python/ficus/legacy/pipelines/analysis/patterns/patterns_parts.py: DiscoverTandemArrays, DiscoverRepeats, DiscoverRepeatsSets, DiscoverActivities, DiscoverActivitiesInTraces, DiscoverActivitiesFromPatterns", "src/python/ficus/legacy/analysis/patterns/event_log_patterns.py"]}
{"id": "C98", "title": "What is left when no more activities are found", "statement": "When DiscoverActivitiesInstancesFromRepeatsUntilNoMore ends, every word of classes that occurs twice in one of the traces of the log searched last (merged: in the whole log) consists of one class. With classes read from the names and without unique names, the same holds for the resulting log. Single classes may still occur twice.", "quantifier": "for all logs whose hashes do not collide, configurations, extra pipelines that leave the log alone, and numbers of rounds", "why_tests_cant": "a statement about all words of the final logs of all runs", "anchors": ["src/python/ficus/legacy/pipelines/analysis/high_level.py: DiscoverActivitiesInstancesFromRepeatsUntilNoMore", "src/python/ficus/legacy/pipelines/analysis/patterns/patterns_parts.py: DiscoverActivitiesFromPatterns, CreateLogFromActivities"]}
{"id": "C99", "title": "Printed facts about a log are right and can be read back", "statement": "PrintEventLogInfo prints the number of traces, of events and of distinct names; PrintEventLogInfoBeforeAndAfter prints this for the given log and for the result, and passes the result or the error on; PrintDFG prints for each selected name each of its followers with the number of times it follows. SaveAllEventNames writes each name once in the order of first occurrence. If no name holds a line feed, the counts can be read back from the printed graph and the names from the file; with line feeds in names different logs give the same text.", "quantifier": "for all logs, selectors, names of operations and inner pipelines", "why_tests_cant": "reading back is a statement about all pairs of logs, and the ambiguous names are unlikely to be in a sample", "anchors": ["src/python/ficus/legacy/pipelines/analysis/analysis_parts.py: SaveAllEventNames, PrintEventLogInfo, PrintEventLogInfoBeforeAndAfter, PrintDFG", "src/python/ficus/legacy/analysis/event_log_info.py: create_log_information, DirectlyFollowsGraph"]}
{"id": "C100", "title": "Patterns in the context belong to the log in the context", "statement": "After DiscoverActivitiesFromPatterns the context has, for every trace of its log, the patterns of this trace, so that DrawPatterns shows them at their places. (Holds for the search in the traces. Fails for the search in the merged trace, which is the default: there is one list of positions in the merged trace; the diagram shows one row, in which patterns of later traces appear beyond the events of the first one.)", "quantifier": "for all logs whose hashes do not collide, kinds of patterns, extractors, palettes and suffix trees", "why_tests_cant": "a statement about all logs and about which log positions refer to, through several parts", "anchors": ["src/python/ficus/legacy/pipelines/analysis/patterns/patterns_parts.py: DiscoverActivitiesFromPatterns, DrawPatterns", "src/python/ficus/legacy/analysis/patterns/patterns_graphs.py: draw_patterns"]}
{"id": "C101", "title": "Traces and logs can be used like lists", "statement": "Reading, writing and deleting by an index concern exactly the item that the index means (counted from the start or, if negative, from the end) and raise IndexError if there is none. insert(new_event, index) never raises and puts the event before the item meant, or at the nearest end, and keeps all others in order. Iterating over a log gives all its traces in order. index gives the first position within its bounds whose item compares equal and raises ValueError if there is none; in, count and index agree. Since events compare by hash, a search may give an event with another payload.", "quantifier": "for all sequences, indices, bounds and values", "why_tests_cant": "indices range over all integers and the inherited methods are loops over the methods of these classes", "anchors": ["src/python/ficus/legacy/log/event_log.py: MyEventsSequence, MyEventLog"]}
{"id": "C102", "title": "The drawn graph of activities has a node for each activity", "statement": "draw_activity_graph draws one node for each name of an activity in the forest, an edge exactly from children to parents, and an edge to the root node exactly from the top level. With names as labels, the label of a discovered activity lists the classes of its events in ascending order, one in a line. (With hashes as labels, the default, this fails if names have equal hashes: nodes are merged and children lost. With names it fails for classes with colons or line feeds and for the name root.)", "quantifier": "for all forests of activities in which equal names have children of equal names", "why_tests_cant": "labels must be told apart for all pairs of names, and the failing pairs are rare", "anchors": ["src/python/ficus/legacy/analysis/patterns/patterns_graphs.py: draw_activity_graph, build_graph", "src/python/ficus/legacy/analysis/patterns/patterns_models.py: ActivityNode.__hash__", "src/python/ficus/legacy/analysis/patterns/util.py: create_activity_name_from_trace"]}
{"id": "C103", "title": "The text of a node identifies the tree", "statement": "str of an activity (and of an instance) is the same for two activities exactly if they and all their descendants have the same sets of events (and the instances the same place). str of two nodes of the class tree is the same only if the trees are. (The latter fails for classes with parentheses.)", "quantifier": "for all trees of activities and classes", "why_tests_cant": "unambiguity is a statement about all pairs of trees of any depth", "anchors": ["src/python/ficus/legacy/analysis/common/common_models.py: GraphNode.__str__", "src/python/ficus/legacy/analysis/patterns/patterns_models.py: ActivityNode._serialize, EventClassNode._serialize, ActivityInTraceInfo.__str__"]}
{"id": "C104", "title": "Sums, averages, variances and deviations of entropies stay within their bounds", "statement": "For a log without the artificial start and end names and with n counted names, the sum of the default entropies exists, lies between 0 and 2 n log2(n + 1) and is n times the average. The table of entropies has one row for each name of the log with its entropy, and its first row has the greatest entropy. The sum of the position entropies is the same for both implementations and with precomputed positions. With at least two non-empty traces it lies between 0 and n, the variance lies between 0 and 1/4, the deviation is its root, and the variance is 0 exactly if all entropies are equal. With one non-empty trace sum, variance and deviation are nan; with no events the sum is 0 and the variance is nan.", "quantifier": "all logs, all sets of ignored names for the sums, all sorting functions for the table", "why_tests_cant": "A test compares the figures of one log with figures computed once; bounds and equality of two implementations for every log need a proof.", "anchors": ["src/python/ficus/legacy/analysis/event_log_analysis_entropy.py: calculate_default_entropy_sum, create_entropies_df, calculate_position_entropies_sum, calculate_position_entropies_fast_sum, draw_position_entropies_histogram, calculate_pos_entropy_var, calculate_pos_entropy_std"]}
{"id": "C105", "title": "The options given to a drawing part take effect, and only on what they name", "statement": "For every drawing part, options and context, if the part draws, then the title is the given one; the diagram is shown if no path is given, and otherwise saved in the path, or in the path that the given function has for the context; there is a legend exactly if it is wanted; the rectangles lie in one row of the given height for each trace; their widths are multiples of the given width of an event; and the axes end with the number of traces and the greatest length. Title, path and legend change neither the rectangles nor the colours. The placement of concrete events is the placement of a predicate. (The width is ignored by DrawPlacementOfEvents and DrawSingleActivityPlacement, and use_hashes_as_name by DrawActivitiesGraphByEventClassLevels; EventsPlacement takes only texts as paths and raises for a function.)", "quantifier": "all drawing parts, all options, all contexts, all states of the colours", "why_tests_cant": "A test of a drawing looks at one picture; that no combination of options, logs and colours loses an option needs a proof over all of them.", "anchors": ["src/python/ficus/legacy/pipelines/common.py: InternalDrawingPipelinePart", "src/python/ficus/legacy/pipelines/analysis/analysis_parts.py: TracesDiversityDiagram, EventsPlacement, DrawPlacementOfEvents", "src/python/ficus/legacy/pipelines/analysis/patterns/patterns_parts.py: DrawActivitiesDiagram, DrawPatterns, DrawShortActivitiesDiagram, DrawFullActivitiesDiagram, DrawSingleActivityPlacement", "src/python/ficus/legacy/pipelines/analysis/patterns/patterns_graph_parts.py: DrawActivitiesGraphByEventClassLevels"]}
{"id": "C106", "title": "The curves of removing all events have one point for each event class", "statement": "The diagrams of removal till the end plot one point for each event class of the log, in an order of the classes, and return their input. A point is the total position entropy before the removal, or how much the removal lowers it. A total is nan exactly if at most one trace with events is left, and then all later ones are; otherwise it lies between 0 and the number of classes that are left. Differences that are numbers add up to what was taken from the total so far, and all of them to the total of the log. (Fails for indirect removal: it never ends if there are two classes and no class occurs in two traces, and for a log of empty traces it plots a point of -1e10.)", "quantifier": "for every log and both kinds of values", "why_tests_cant": "Non-termination cannot be observed, and the sums are about curves of any length.", "anchors": ["src/python/ficus/legacy/pipelines/filtering/filter_parts.py: DrawPosEntropyDirectTillEndFilteringDiagram, DrawPosEntropyIndirectTillEndFilteringDiagram", "src/python/ficus/legacy/filtering/event_log_filters.py: filter_events_pos_entropy_direct_till_end, filter_events_pos_entropy_indirect_till_end"]}
{"id": "C107", "title": "The functions that tell the next removal agree with the filters", "statement": "next_event_to_remove_default_entropy_direct returns a touchable event class of the log with the greatest entropy of the touchable ones, and this entropy; next_event_remove_pos_entropy_direct returns a class with the greatest position entropy if two traces have events, and a class with nan if only one has. A direct filter with a budget of one removes just the class that is told, if its entropy is above the threshold; an indirect filter with a budget of one makes the choice that next_removal_default_entropy_indirect or next_event_remove_pos_entropy_indirect tells, unless the log is at the threshold. Without a touchable class the direct functions raise ValueError, also for a log without traces, which the filters return.", "quantifier": "for every log, threshold and set of untouchable classes", "why_tests_cant": "Two functions must agree on every log although one of them uses another implementation of the entropies.", "anchors": ["src/python/ficus/legacy/filtering/event_log_filters.py: next_event_to_remove_default_entropy_direct, next_event_remove_pos_entropy_direct, next_removal_default_entropy_indirect, next_event_remove_pos_entropy_indirect"]}
{"id": "C108", "title": "The drawn graph of event classes shows every event name and its classes", "statement": "The graph that BuildEventClassTree with BuildEventClassGraph (or DrawEventClassTree) gives has one node for each event name of the log and each class of one at some level, and one edge for each name or class and its class at the next level (and for each class of the highest level and the root, if wanted). Nothing else is in it. (Fails if a text is a class at two levels: with two extractors that leave a class as it is, the events below it are lost; with one extractor it depends on the order of a set whether some events are shown. It holds for levels without common texts, and for one extractor that leaves classes as they are; an event with the name of its class has a loop.)", "quantifier": "for all logs, all lists of extractors and all orders of the set of names", "why_tests_cant": "the picture depends on names, on depth and on the order of a set that changes between runs", "anchors": ["src/python/ficus/legacy/pipelines/analysis/patterns/patterns_graph_parts.py: BuildEventClassTree, BuildEventClassGraph, DrawEventClassTree", "src/python/ficus/legacy/analysis/patterns/event_log_patterns.py: build_class_tree", "src/python/ficus/legacy/analysis/patterns/patterns_graphs.py: build_graph, default_node_name_creator"]}
{"id": "C109", "title": "Options of the parts that discover activities take effect", "statement": "All activities that DiscoverActivitiesFromTandemArrays and DiscoverActivitiesInstancesFromRepeats put into the context have the given level and the name that the given creator has for their place; all instances satisfy the given filter, and the filter only selects instances. The level and the names are only labels as long as the order of the names is the same. debug_prints changes only what is printed. The repetition begins with initial_activity_level and raises the level by one per round only with increase_activity_level. should_narrow_activity decides whether narrow_activity is applied to each instance, whose places are the same. (Fails for some options: both parts, and the part that repeats the discovery, ignore should_narrow_activity, which takes effect in DiscoverActivitiesInTraces; the repetition ignores min_events_in_trace; AddAllPatterns ignores its class extractor. The order of names decides which of several activities of the same size is reported.)", "quantifier": "for all logs, all kinds of patterns and all values of the options", "why_tests_cant": "an option that is ignored is only seen when the results with and without it differ, and that others have no further effect is about all logs", "anchors": ["src/python/ficus/legacy/pipelines/analysis/high_level.py: DiscoverActivitiesFromTandemArrays, DiscoverActivitiesInstancesFromRepeats, DiscoverActivitiesInstancesFromRepeatsUntilNoMore", "src/python/ficus/legacy/pipelines/analysis/patterns/patterns_parts.py: AddAllPatterns, DiscoverActivitiesInTraces, PrintActivities", "src/python/ficus/legacy/analysis/patterns/event_log_patterns.py: build_repeat_set_tree, extract_activities_from_log, narrow_activity"]}
{"id": "C110", "title": "The backend counts a log exactly, and as the local library does", "statement": "The log information that remote discovery uses holds the number of all events and all traces, the number of events of each class that is not ignored, and for each pair of classes how often the second comes directly after the first when ignored events are left out (with the artificial start and end, if wanted). Followers, predecessors and the classes with a single follower are derived from these counts without loss. Start and end classes are the classes of the first and last events of all traces, also of ignored events. For the same log the counts are those of the local create_log_information and create_dfg.", "quantifier": "for every log, every set of ignored classes and every order in which hash maps are iterated", "why_tests_cant": "The order of iteration of a hash map differs between runs, and two programs in different languages must agree on every log.", "anchors": ["src/rust/ficus_backend/src/features/analysis/event_log_info.rs: EventLogInfo::create_from, DfgInfo", "src/python/ficus/legacy/analysis/event_log_info.py: create_log_information, create_dfg"]}
{"id": "C111", "title": "The remote directly follows graph is exact and equals the local one", "statement": "The graph that DiscoverDirectlyFollowsGraph of the backend computes always exists, has exactly one node for each event class of the log, at most one edge between two nodes in a direction, an edge from one class to another exactly if the second comes directly after the first in some trace, and each edge is labelled with the number of these places. The edges and labels are those of the local create_dfg.", "quantifier": "for every log, every next identifier and every order in which hash maps are iterated", "why_tests_cant": "Nodes are found by identifiers that are drawn in the order of a hash map; a wrong lookup would only show for some orders.", "anchors": ["src/rust/ficus_backend/src/features/analysis/directly_follows_graph.rs: construct_dfg", "src/rust/ficus_backend/src/utils/graph/graph.rs: Graph", "src/rust/ficus_backend/src/pipelines/discovery_parts.rs", "src/python/ficus/grpc_pipelines/discovery_parts.py: ViewDirectlyFollowsGraph2", "src/python/ficus/legacy/analysis/event_log_info.py: create_dfg"]}
{"id": "C112", "title": "The remote alpha algorithms make their places from exactly the maximal pairs of sets", "statement": "The sets from which the backend makes the places of DiscoverPetriNetAlpha are exactly the maximal pairs of sets of event classes in which every class on the left is causal for every class on the right and the classes on one side are unrelated, each pair once, and they are found after at most as many rounds as there are classes. For Alpha+ the same holds for the log without the classes that come directly after themselves, where classes of short loops (both triangles occur) count as causal. (Fails for hash collisions: sets are compared by hashes of their names, and of two sets with the same hash one is lost.)", "quantifier": "for every log, every order in which hash maps and sets are iterated, and every hash that tells the possible sets apart", "why_tests_cant": "Sets are merged in rounds in the order of a hash map; that no order loses a maximal set or keeps a smaller one is about all orders and all logs.", "anchors": ["src/rust/ficus_backend/src/features/discovery/alpha/alpha.rs: create_initial_sets, maximize_sets, filter_out_non_maximal_sets", "src/rust/ficus_backend/src/features/discovery/alpha/utils.rs: maximize", "src/rust/ficus_backend/src/features/discovery/alpha/alpha_set.rs: AlphaSet", "src/rust/ficus_backend/src/utils/sets/two_sets.rs: TwoSets", "src/rust/ficus_backend/src/features/discovery/alpha/providers/alpha_provider.rs", "src/rust/ficus_backend/src/features/discovery/alpha/providers/alpha_plus_provider.rs"]}
{"id": "C113", "title": "The remote alpha algorithm always gives the net of its sets", "statement": "DiscoverPetriNetAlpha of the backend gives a net for every log if the hashes of sets of classes do not collide. The net has exactly one transition for each event class, none of them silent; one place for each maximal pair, named by its two sides, one start place and one end place; a class on the left of a pair has exactly one arc to its place and a class on the right exactly one arc from it; the classes that begin traces have one arc from the start place, those that end traces one arc to the end place; there are no other arcs. The initial and final marking have one token in the start and the end place. The identifiers of places, transitions and arcs are all different, and all arcs end at places of the net.", "quantifier": "for every log, every next identifier and every order of iteration", "why_tests_cant": "A net is right only if every arc is there once and none is missing, for logs of any size and all orders of identifiers.", "anchors": ["src/rust/ficus_backend/src/features/discovery/alpha/alpha.rs: discover_petri_net_alpha, create_petri_net", "src/rust/ficus_backend/src/features/discovery/petri_net/petri_net.rs: PetriNet", "src/rust/ficus_backend/src/pipelines/discovery_parts.rs", "src/python/ficus/grpc_pipelines/discovery_parts.py: DiscoverPetriNetAlpha2"]}
{"id": "C114", "title": "The remote Alpha+ algorithm gives a net in which each class of the log can occur", "statement": "DiscoverPetriNetAlphaPlus of the backend gives the net of the log without the classes that come directly after themselves, and puts each of these back as a transition with one arc from and one arc to the place between the classes before and after it, so that it can occur. (Fails: the backend panics exactly if a trace has fewer than two events or if a class that comes directly after itself begins or ends a trace; and if no place is named after the classes around a loop, the loop gets a new place without tokens, so that its transition never fires.)", "quantifier": "for every log, every next identifier and every order of iteration", "why_tests_cant": "Whether a loop finds its place depends on the log as a whole; that it is never connected to anything else is about all logs.", "anchors": ["src/rust/ficus_backend/src/features/discovery/alpha/alpha.rs: discover_petri_net_alpha_plus, add_one_length_loops", "src/rust/ficus_backend/src/features/discovery/petri_net/petri_net.rs: find_place_id_by_name", "src/rust/ficus_backend/src/pipelines/discovery_parts.rs", "src/python/ficus/grpc_pipelines/discovery_parts.py: DiscoverPetriNetAlphaPlus2"]}
{"id": "C115", "title": "The remote Alpha++ algorithm gives the net of Alpha+", "statement": "DiscoverPetriNetAlphaPlusPlus of the backend never adds an arc to the net of DiscoverPetriNetAlphaPlus: no set of a place contains the set of another place, which is what the added step looks for. It fails exactly where Alpha+ fails, and also if no place of the net is made from a set and no net of the same process had such a place before.", "quantifier": "for every log, every next identifier and every order of iteration", "why_tests_cant": "That a step of an algorithm has no effect cannot be tested, as there are infinitely many logs for which it could have one.", "anchors": ["src/rust/ficus_backend/src/features/discovery/alpha/alpha.rs: discover_petri_net_alpha_plus, add_alpha_plus_plus_transitions", "src/rust/ficus_backend/src/utils/user_data/user_data.rs", "src/python/ficus/grpc_pipelines/discovery_parts.py: DiscoverPetriNetAlphaPlusPlus2"]}
{"id": "C116", "title": "The remote replay finds a firing sequence exactly for the traces that fit the net", "statement": "When the backend replays a trace on a net in which no transition has two arcs from one place, it never panics; if it gives a result, the fired transitions of the result can fire one after the other from the initial marking, their visible names are the trace, and the marking of the result is the one after them; if it gives none, no firing sequence with any silent transitions in between has the trace as its visible names. If silent transitions cannot fire forever, as in nets without silent transitions, the replay ends for every trace. (Fails otherwise: a silent transition that gives back what it takes makes the replay endless, also for traces that cannot be replayed.)", "quantifier": "for every net without double arcs, every initial marking of different places with tokens, every trace and every order in which the transitions are iterated", "why_tests_cant": "The search tries transitions depth first with silent steps in between; that it misses no firing sequence of any length is beyond tests on given nets.", "anchors": ["src/rust/ficus_backend/src/features/discovery/petri_net/replay.rs: replay_petri_net, handle_transition, find_transitions_to_fire", "src/rust/ficus_backend/src/features/discovery/petri_net/marking.rs: Marking"]}
{"id": "C117", "title": "Annotations of nets count how often the arcs are used", "statement": "The remote annotation of a net with counts gives for each arc the number of times its transition fires in the replay of the traces that fit, and no entry exactly for arcs never used; there is no annotation (the part fails) exactly if a trace does not fit and the option to terminate is set, or if the net has no initial marking and the log is not empty. For nets of the alpha algorithm the count of each arc of a class is the number of events of the class in the traces that fit. The frequencies are the counts divided by their sum, are between 0 and 1 and add up to 1 if there are any; the trace frequencies are the counts divided by the number of traces.", "quantifier": "for every well-formed net without double arcs in which silent transitions end, every log and every order of iteration", "why_tests_cant": "Counts are summed over all traces and over replays that are found by search; that no arc is counted twice or missed is about all nets and logs.", "anchors": ["src/rust/ficus_backend/src/features/discovery/petri_net/annotations.rs: annotate_with_counts, annotate_with_frequencies, annotate_with_trace_frequency", "src/rust/ficus_backend/src/features/discovery/petri_net/replay.rs: replay_petri_net", "src/rust/ficus_backend/src/pipelines/annotations_parts.rs"]}
{"id": "C118", "title": "EnsureInitialMarking gives a net a start from which its log can be replayed", "statement": "EnsureInitialMarking of the backend adds two places, connects the first to one transition named like the first event of each trace and one transition named like the last event of each trace to the second, keeps everything else, and gives the first place the only token; a log whose traces could be replayed before can be replayed afterwards. (Fails: it panics exactly if a trace is empty; it does not touch the final marking; and after the alpha algorithm no trace of the log can be replayed any more, as the transitions of first events still need the token of the old start place.)", "quantifier": "for every log, every well-formed net and every order of iteration", "why_tests_cant": "The effect on the replay concerns all traces of all logs.", "anchors": ["src/rust/ficus_backend/src/features/discovery/petri_net/marking.rs: ensure_initial_marking", "src/rust/ficus_backend/src/features/discovery/petri_net/petri_net.rs: find_transition_by_name, add_place, connect_place_to_transition, connect_transition_to_place", "src/rust/ficus_backend/src/pipelines/discovery_parts.rs: ensure_initial_marking"]}
{"id": "C119", "title": "The relations of the heuristic miner are those counted in the log", "statement": "For DiscoverPetriNetHeuristic of the backend a class depends on another one exactly if both occur in the log, it comes directly after the other one at least as often as the observations threshold, the dependency measure (difference by sum plus one, or count by count plus one for a class after itself) is over the dependency threshold, and it is at least the best measure of the followers times one minus the relative threshold. With a threshold that is not negative two classes never depend on each other. Whether two classes are parallel after a third one and whether they form a loop of length two is decided by the counts in the log and does not depend on their order.", "quantifier": "for every log, all thresholds and every order of iteration over hash maps", "why_tests_cant": "The relations are computed in loops over hash maps with a running choice of the best; that they do not depend on the order and agree with the counts is about all logs.", "anchors": ["src/rust/ficus_backend/src/features/discovery/heuristic/relations_provider.rs: dependency_relation, and_or_xor_relation, loop_length_two_relation, calculate_dependency_measure", "src/rust/ficus_backend/src/pipelines/discovery_parts.rs: discover_petri_net_heuristic", "src/python/ficus/grpc_pipelines/discovery_parts.py: DiscoverPetriNetHeuristic2"]}
{"id": "C120", "title": "The heuristic miner finds exactly the maximal groups of parallel classes", "statement": "The groups of parallel followers of a class that DiscoverPetriNetHeuristic forms by merging pairs again and again are exactly the maximal sets of at least two classes that depend on the class and are pairwise parallel after it; each is found once, and the merging ends.", "quantifier": "for every log, all thresholds, every class and every order of iteration", "why_tests_cant": "Merging in rounds could miss a maximal set or stop at one that is not maximal; which sets there are depends on the whole log.", "anchors": ["src/rust/ficus_backend/src/features/discovery/heuristic/heuristic_miner.rs: construct_heuristic_petri_net", "src/rust/ficus_backend/src/features/discovery/alpha/utils.rs: maximize", "src/rust/ficus_backend/src/utils/sets/one_set.rs: OneSet"]}
{"id": "C121", "title": "The net of the heuristic miner consists of what its relations say", "statement": "DiscoverPetriNetHeuristic panics exactly if a trace has fewer than two events. Otherwise the net has one visible transition for each class and one silent transition for each maximal group of parallel followers of a class; one place after each class with followers, which the class fills and from which the silent transitions of its groups and its followers in no group take; one place for each member of each group, filled by the silent transition of the group alone; and for each loop of length two the class also takes where the other class gives and gives where the other one takes. All other pairs have no arc. Identifiers are all different, and there are no markings.", "quantifier": "for every log, all thresholds, every next identifier and every order of iteration", "why_tests_cant": "The net is built by several nested loops over hash maps; that every arc is there as often as the relations say and none else is about all logs.", "anchors": ["src/rust/ficus_backend/src/features/discovery/heuristic/heuristic_miner.rs: discover_petri_net_heuristic, construct_heuristic_petri_net, add_length_two_loops", "src/rust/ficus_backend/src/features/discovery/petri_net/petri_net.rs", "src/rust/ficus_backend/src/pipelines/discovery_parts.rs: discover_petri_net_heuristic", "src/python/ficus/grpc_pipelines/discovery_parts.py: DiscoverPetriNetHeuristic2"]}
{"id": "C122", "title": "The log can be replayed on the net that the heuristic miner discovers from it", "statement": "After DiscoverPetriNetHeuristic and EnsureInitialMarking the backend can replay the traces of the log on the net. (Fails: a class waits for all classes it depends on and which it follows in no group, also if they exclude each other in the log, so that a log in which a class comes either after one class or after another one has no trace that can be replayed; and loops of length two add a second arc between a place and a transition, for which the replay panics. Both happen with the default thresholds.)", "quantifier": "for every log without loops of length two, all thresholds and every order of iteration, and for given logs", "why_tests_cant": "That a class can never come more often than a class it depends on is about all firing sequences of the nets of all logs.", "anchors": ["src/rust/ficus_backend/src/features/discovery/heuristic/heuristic_miner.rs: construct_heuristic_petri_net, add_length_two_loops", "src/rust/ficus_backend/src/features/discovery/petri_net/marking.rs: ensure_initial_marking", "src/rust/ficus_backend/src/features/discovery/petri_net/replay.rs: replay_petri_net", "src/python/ficus/grpc_pipelines/discovery_parts.py: DiscoverPetriNetHeuristic2"]}
{"id": "C123", "title": "Removing events remotely removes exactly the events asked for", "statement": "FilterEventsByName2 and FilterEventsByRegex2 remove exactly the events with the name, or whose names match, and then the traces without events; the other events and traces keep their order. By name the result is that of the local removal. A text that is no regular expression is reported as an error, and the part panics exactly if the matcher fails on the name of some event.", "quantifier": "for every log, name and regular expression", "why_tests_cant": "The events are removed from vectors while going over them by index; that none is skipped and no wrong one removed is about all logs.", "anchors": ["src/rust/ficus_backend/src/features/mutations/filtering.rs: filter_log_by_name, filter_log_by_names, filter_log_by_regex", "src/rust/ficus_backend/src/event_log/core/trace/traces_holder.rs: filter_events_by", "src/rust/ficus_backend/src/event_log/core/event/events_holder.rs: remove_events_by", "src/rust/ficus_backend/src/pipelines/filtering_parts.rs: filter_log_by_event_name, filter_log_by_regex", "src/python/ficus/grpc_pipelines/filtering_parts.py: FilterEventsByName2, FilterEventsByRegex2", "src/python/ficus/legacy/mutations/event_log_mutations.py: remove_event_from_log"]}
{"id": "C124", "title": "The remote filter by the number of events keeps traces with at least that number", "statement": "FilterTracesByEventsCount2 keeps exactly the traces with at least the given number of events, in their order. (The local FilterTracesByCount with the same number keeps only traces with more events: the two agree exactly if no trace has exactly that number.)", "quantifier": "for every log and number", "why_tests_cant": "That the two parts agree exactly on the logs without a trace of that length is a statement about all logs.", "anchors": ["src/rust/ficus_backend/src/pipelines/filtering_parts.rs: filter_traces_by_count", "src/rust/ficus_backend/src/event_log/core/trace/traces_holder.rs: filter_traces", "src/python/ficus/grpc_pipelines/filtering_parts.py: FilterTracesByEventsCount2", "src/python/ficus/legacy/pipelines/filtering/filter_parts.py: FilterTracesByCount", "src/python/ficus/legacy/mutations/event_log_mutations.py: remove_empty_traces"]}
{"id": "C125", "title": "The remote filter by variants keeps the first trace of each variant", "statement": "FilterLogByVariants2 keeps exactly the first trace of each sequence of names, in the order of the log and independently of the order of hash maps; the groups of traces are the classes of equal sequences of names in the order of their first traces. The local filter keeps the same traces, possibly in another order. (Names with equal hashes are one variant.)", "quantifier": "for every log, every hash that tells its names apart and every order of iteration over hash maps", "why_tests_cant": "The groups are refined in rounds over hash maps; that the result is the same for every order of iteration cannot be tested.", "anchors": ["src/rust/ficus_backend/src/features/mutations/split.rs: get_traces_groups_indices, create_trace_pointers_groups, process_traces_group, update_groups", "src/rust/ficus_backend/src/pipelines/filtering_parts.rs: filter_log_by_variants", "src/rust/ficus_backend/src/event_log/core/trace/traces_holder.rs: filter_traces", "src/python/ficus/grpc_pipelines/filtering_parts.py: FilterLogByVariants2", "src/python/ficus/legacy/pipelines/filtering/filter_parts.py: FilterTracesByVariants"]}
{"id": "C126", "title": "Remote artificial events enclose each trace", "statement": "AddStartEndArtificialEvents2, AddStartArtificialEvents2 and AddEndArtificialEvents2 put one event of the name ARTIFICIAL_START with the least time at the start and one of the name ARTIFICIAL_END with the greatest time at the end of each trace, also of an empty one, and change no other event; traces whose times do not go back stay so; and removing the two names gives the log back if it has no empty trace and no events of these names.", "quantifier": "for every log", "why_tests_cant": "The effect on all traces and the return to the log are statements about all logs.", "anchors": ["src/rust/ficus_backend/src/features/mutations/mutations.rs: add_artificial_start_end_activities", "src/rust/ficus_backend/src/pipelines/mutations_parts.rs: add_artificial_start_end_events, add_artificial_start_events, add_artificial_end_events", "src/rust/ficus_backend/src/event_log/xes/xes_event.rs: new_with_min_date, new_with_max_date", "src/python/ficus/grpc_pipelines/mutation_parts.py: AddStartEndArtificialEvents2, AddStartArtificialEvents2, AddEndArtificialEvents2"]}
{"id": "C127", "title": "Class extraction replaces names by what matches at their start", "statement": "ApplyClassExtractor2 changes only names: the name of an event that passes the filter becomes the part that the expression matches at its start, and stays if the expression matches nothing there; it panics exactly if the filter fails on the name of some event. A new name is a prefix of the old one. The hashes with which patterns are found for an expression of classes are those of the names after the extraction.", "quantifier": "for every log and every pair of expressions", "why_tests_cant": "That two places of the code, the extraction and the hashes, use the same classes is a statement about all names and expressions.", "anchors": ["src/rust/ficus_backend/src/pipelines/activities_parts.rs: apply_class_extractor", "src/rust/ficus_backend/src/event_log/core/event/event_hasher.rs: RegexEventHasher", "src/rust/ficus_backend/src/pipelines/util_parts.rs: create_hashed_event_log", "src/python/ficus/grpc_pipelines/activities_parts.py: ApplyClassExtractor2"]}
{"id": "C128", "title": "Names and underlying events make new logs in order", "statement": "UseNamesEventLog2 makes a log with exactly the given names in order whose events are a second apart from the least time on, so that taking the names and using them keeps the names and nothing else. SubstituteUnderlyingEvents2 replaces each event by the events without underlying events below it, at any depth, in their order, and keeps the number of traces.", "quantifier": "for every list of lists of names, every log and every depth of underlying events", "why_tests_cant": "Underlying events can be nested at any depth.", "anchors": ["src/rust/ficus_backend/src/pipelines/util_parts.rs: get_names_event_log, use_names_event_log", "src/rust/ficus_backend/src/features/analysis/patterns/activity_instances.rs: substitute_underlying_events", "src/rust/ficus_backend/src/pipelines/activities_parts.rs: substitute_underlying_events", "src/python/ficus/grpc_pipelines/util_parts.py: UseNamesEventLog2", "src/python/ficus/grpc_pipelines/activities_parts.py: SubstituteUnderlyingEvents2"]}
{"id": "C129", "title": "The tandem arrays found by the backend", "statement": "FindMaximalTandemArrays2 and FindPrimitiveTandemArrays2 report, by the length of the block and then by the start, exactly the tandem arrays of the event classes of each trace with blocks of 2 to less than the given number of classes that start where their block occurs first, with the greatest number of repetitions, and of these as primitive those at whose start no square of a word of two classes up to half of the block begins. The local parts report the same. Every report is a genuine tandem array even if hashes of words collide, which only loses reports; the search panics only if the hash of a word overflows in a build with overflow checks. (Names with equal hashes are one class.)", "quantifier": "for every log, every expression of classes and every maximal length", "why_tests_cant": "Collisions and overflows of 64-bit hashes depend on rare values, and which arrays are skipped depends on all words of a trace.", "anchors": ["src/rust/ficus_backend/src/features/analysis/patterns/tandem_arrays.rs: find_maximal_tandem_arrays_with_length, find_primitive_tandem_arrays_with_length, try_extract_tandem_array", "src/rust/ficus_backend/src/utils/hash_utils.rs: calculate_poly_hash_for_collection", "src/rust/ficus_backend/src/pipelines/patterns_parts.rs: find_tandem_arrays_and_put_to_context", "src/python/ficus/grpc_pipelines/patterns_parts.py: FindTandemArrays2, FindPrimitiveTandemArrays2, FindMaximalTandemArrays2", "src/python/ficus/legacy/analysis/patterns/event_log_patterns.py: find_maximal_tandem_arrays, find_primitive_tandem_arrays"]}
{"id": "C130", "title": "The repeat sets of the backend", "statement": "Building the repeat sets from patterns keeps, for every set of event classes of a pattern, the pattern with this set that comes first by trace, start and length, and lists them in this order, whatever the order in which hash maps are iterated and in which the patterns of a trace are given. The local library selects the same ones from the same patterns and lists them in the order found. Two sets with the same hash are taken for one (the statements on completeness suppose that the hash tells them apart; the others do not). It fails only for a pattern outside its trace or an overflow in a hash.", "quantifier": "for every log, every list of patterns and every order of iteration of hash maps", "why_tests_cant": "Orders of iteration of hash maps are random; equality of the selection with the other implementation is a statement about all logs.", "anchors": ["src/rust/ficus_backend/src/features/analysis/patterns/repeat_sets.rs: build_repeat_sets, SubArrayWithTraceIndex", "src/rust/ficus_backend/src/pipelines/activities_parts.rs: do_discover_activities", "src/python/ficus/grpc_pipelines/activities_parts.py: DiscoverActivities2, DiscoverActivitiesFromPatterns2", "src/python/ficus/legacy/analysis/patterns/event_log_patterns.py: create_repeat_sets"]}
{"id": "C131", "title": "The activity graph of the backend", "statement": "The graph built from repeat sets with different sets of classes has one node for each, with its classes, name and level, and never fails for the repeat sets found by the backend. The nodes returned are those whose set is not strictly inside another one; a node is a child of exactly the nodes with a strictly larger set, except that nodes of the greatest size are its parents only if no other node has a strictly larger set. Every node can be reached from a returned one, and children are strictly smaller, so that there are no cycles. A node can have parents one above the other, and a set inside another one need not be below it.", "quantifier": "for every log and every list of repeat sets", "why_tests_cant": "Reachability and the absence of cycles are statements about all families of sets.", "anchors": ["src/rust/ficus_backend/src/features/analysis/patterns/repeat_sets.rs: build_repeat_set_tree_from_repeats, ActivityNode", "src/rust/ficus_backend/src/pipelines/activities_parts.rs: do_discover_activities", "src/python/ficus/grpc_pipelines/activities_parts.py: DiscoverActivities2"]}
{"id": "C132", "title": "Extraction of activity instances in the backend", "statement": "Extraction of activity instances always ends and gives one list per trace. Without a filter the intervals of a trace are the greedy segmentation for the sets of classes of the activities, the same as in the local library: they depend neither on names, narrowing and hashes nor on the order of the activities. The activity of an instance is one of the given ones with all classes of the interval and as few classes as possible, or, when asked to narrow, one below it with all classes and as few as possible. The default filter keeps the instances whose activity has enough classes and fewer than twice as many classes as the interval has events. The activities given are reordered by size.", "quantifier": "for every graph of activities without cycles, every log, every list of activities and every kind of narrowing", "why_tests_cant": "That the scan and the search below an activity end, and that the intervals are determined by the sets alone, are statements about all logs and graphs.", "anchors": ["src/rust/ficus_backend/src/features/analysis/patterns/activity_instances.rs: extract_activities_instances, is_suitable_activity_instance, split_activities_nodes_by_size, narrow_activity", "src/rust/ficus_backend/src/pipelines/activities_parts.rs: do_discover_activities_instances", "src/python/ficus/grpc_pipelines/activities_parts.py: DiscoverActivitiesInstances2", "src/python/ficus/legacy/analysis/patterns/event_log_patterns.py: extract_activities_from_log"]}
{"id": "C133", "title": "The log made from activity instances", "statement": "CreateLogFromActivitiesInstances2 makes of each trace, for instances that are ordered, disjoint and inside it (which extraction always gives), a trace in which every instance is one event over its events and of the events between instances there is what the strategy says: nothing, one event for each gap that is not empty, or all of them. If all are inserted, substituting the underlying events gives what it gives for the old log. A trace never gets longer, and has at least as many events as instances. (Traces without a list of instances are lost.)", "quantifier": "for every log, every list of instances per trace and every strategy", "why_tests_cant": "The new traces are assembled from gaps and instances at arbitrary positions.", "anchors": ["src/rust/ficus_backend/src/features/analysis/patterns/activity_instances.rs: create_new_log_from_activities_instances, process_activities_in_trace, UndefActivityHandlingStrategy", "src/rust/ficus_backend/src/pipelines/activities_parts.rs: do_create_log_from_activities", "src/python/ficus/grpc_pipelines/activities_parts.py: CreateLogFromActivitiesInstances2"]}
{"id": "C134", "title": "Instances in the unattached parts of traces", "statement": "Adding instances in the unattached parts of traces always ends and keeps all instances there are; in every gap with at least the given number of events it adds those that extraction finds in the gap taken as a trace, and the result is again ordered, disjoint and inside the traces. Without instances this is extraction in the traces with enough events; without a filter a second time adds nothing. The log of the unattached events has exactly the events in no instance, in their order.", "quantifier": "for every graph of activities without cycles, every log and every list of instances that are ordered, disjoint and inside the traces", "why_tests_cant": "That the instances found inside the gaps and the old ones fit together after the sort is a statement about all positions.", "anchors": ["src/rust/ficus_backend/src/features/analysis/patterns/activity_instances.rs: add_unattached_activities, create_log_from_unattached_events", "src/rust/ficus_backend/src/pipelines/activities_parts.rs: discover_activities_in_unattached_subtraces, adjust_with_activities_from_unattached_events", "src/python/ficus/grpc_pipelines/activities_parts.py: DiscoverActivitiesForSeveralLevels2, DiscoverActivitiesFromPatterns2"]}
{"id": "C135", "title": "Logs, numbers of underlying events and names of activities", "statement": "The logs of activities have one log per name with a trace for each instance of the asked level whose activity has the name, in the order of traces and positions; made from the new log they are the same up to underlying events, if nothing with underlying events was inserted between instances. The number of underlying events is the number of events after substituting them, and making a new log with all events inserted keeps it. The name of an activity lists the classes of the events of its first occurrence in brackets; two activities have the same name only if these classes are the same, as long as no class has a closing bracket.", "quantifier": "for every log, every list of instances and every depth of underlying events", "why_tests_cant": "The agreement of the two ways to make the logs and the injectivity of names are statements about all logs.", "anchors": ["src/rust/ficus_backend/src/features/analysis/patterns/activity_instances.rs: create_logs_for_activities, create_activities_logs_from_log, create_log_from_traces_activities, create_activity_name, count_underlying_events", "src/rust/ficus_backend/src/pipelines/activities_parts.rs: execute_with_each_activity_log, get_number_of_underlying_events", "src/python/ficus/grpc_pipelines/activities_parts.py: ExecuteWithEachActivityLog2, PrintNumberOfUnderlyingEvents2"]}
{"id": "C136", "title": "Discovery of activities until there are no more", "statement": "The part that discovers activities until there are no more always ends, after at most one more round than the log has events, whatever the search for patterns, unless the pipeline that it runs makes the log longer; with a search that finds sub-arrays of the traces it never panics. It leaves as many traces and no more events; if all events between instances are inserted, substituting the underlying events gives what it gives for the log at the start. It ends when there are no instances, when a round leaves the number of events, or when the pipeline for the last extraction has been run, which happens at most once and for instances of one event only. That pipeline need not be run at all.", "quantifier": "for every log, every search for patterns, every strategy and every pipeline", "why_tests_cant": "The number of rounds has no bound known before; that a loop ends on every log cannot be tested.", "anchors": ["src/rust/ficus_backend/src/pipelines/activities_parts.rs: discover_activities_until_no_more, do_create_log_from_activities", "src/rust/ficus_backend/src/pipelines/patterns_parts.rs: find_patterns", "src/python/ficus/grpc_pipelines/activities_parts.py: DiscoverActivitiesUntilNoMore2"]}
{"id": "C137", "title": "Activities for several levels in the backend", "statement": "The discovery of activities for several levels takes the expressions of classes from the last to the first and counts the level up from the given one. The activities and the instances there were stay, new activities come after them, the classes of a new activity are those of events of the log by the expression of its level (of events in no instance at the start, if patterns are to be looked for outside of instances), and the instances are ordered, disjoint and inside the traces in the end. For one level in all of a log without activities it is the usual discovery and extraction, in the traces with enough events. If patterns are to be looked for outside of the instances and there are none yet, it ends with an error, whatever the log.", "quantifier": "for every log, every list of expressions, every search for patterns and every state of the context", "why_tests_cant": "The number of levels and what earlier levels leave is arbitrary.", "anchors": ["src/rust/ficus_backend/src/pipelines/activities_parts.rs: discover_activities_instances_for_several_levels, adjust_with_activities_from_unattached_events, discover_activities_in_unattached_subtraces, create_empty_activities", "src/python/ficus/grpc_pipelines/activities_parts.py: DiscoverActivitiesForSeveralLevels2"]}
{"id": "C138", "title": "The suffix tree of the backend", "statement": "The suffix tree that the backend builds for a sequence is the suffix tree of it: building never panics, there is exactly one way from the root to every node and different nodes have different words, the leaves are exactly the suffixes of the sequence with its end mark, the inner nodes are exactly the words that at least two different elements (or the end) follow, the label of an edge is not empty and begins with the element under which the parent has the child, and the link of an inner node leads to its word without the first element.", "quantifier": "for every sequence of elements", "why_tests_cant": "Ukkonen's algorithm keeps an invariant about implicit suffixes and links that no finite number of words exercises.", "anchors": ["src/rust/ficus_backend/src/utils/suffix_tree/suffix_tree_build.rs: build_tree, go, split, get_link", "src/rust/ficus_backend/src/utils/suffix_tree/node.rs: Node", "src/rust/ficus_backend/src/utils/suffix_tree/suffix_tree_slice.rs: SingleWordSuffixTreeSlice"]}
{"id": "C139", "title": "Repeats in each trace in the backend", "statement": "The searches for repeats of the backend, for each trace by itself, never panic and report for each trace words that are repeats of the kind asked for, each word once, by an occurrence inside of the trace, in the order of the starts and then of the lengths. All super maximal repeats are reported, all near super maximal repeats, and all maximal repeats; and the discovery of activities never panics with them.", "quantifier": "for every log of sequences of hashes and each of the three kinds of repeats", "why_tests_cant": "Which words are repeats that cannot be extended is a statement about all words and all positions of a trace.", "anchors": ["src/rust/ficus_backend/src/utils/suffix_tree/suffix_tree_repeats.rs: find_maximal_repeats, find_super_maximal_repeats, find_near_super_maximal_repeats, dfs_repeats, add_repeats", "src/rust/ficus_backend/src/features/analysis/patterns/repeats.rs: find_from_all_traces", "src/rust/ficus_backend/src/utils/hash_map_utils.rs: increase_in_map_by, compare_maps_by_keys", "src/python/ficus/grpc_pipelines/patterns_parts.py: FindMaximalRepeats2, FindSuperMaximalRepeats2, FindNearSuperMaximalRepeats2"]}
{"id": "C140", "title": "Petri nets written to PNML", "statement": "Writing a Petri net panics exactly if an arc has no place in the net. Otherwise the document is well nested and has exactly one element for every place, one with its label for every transition and one with its two ends for every arc; places and transitions come in the order of their names. With identifiers, every identifier stands at one element only, and nets that give the same document have the same places, transitions with the same names and the same arcs. With names as identifiers, the document does not depend on identifiers or on the order of hash maps if the transitions have different names: nets that are the same but for identifiers give the same document, so a log gives always the same document by way of the alpha algorithm; and nets that give the same document are the same but for identifiers, if no transition has the name of a place. Names as identifiers need not be unique: a class with the name of a place gets the identifier of that place. Markings and which transitions are silent are not written.", "quantifier": "for every net, every order of iteration of the maps, and every log", "why_tests_cant": "That the document does not depend on the order of hash maps or on a counter of the process, and that it determines the net, quantifies over all nets, orders and pairs of nets.", "anchors": ["src/rust/ficus_backend/src/features/discovery/petri_net/pnml_serialization.rs: serialize_to_pnml, write_places, write_transitions, write_arcs, patch_arcs_list, create_arc_name", "src/rust/ficus_backend/src/utils/xml_utils.rs: StartEndElementCookie", "src/rust/ficus_backend/src/pipelines/discovery_parts.rs: serialize_petri_net", "src/python/ficus/grpc_pipelines/discovery_parts.py: SerializePetriNetToPNML2"]}
{"id": "C141", "title": "Runs of pipelines in the service of the backend", "statement": "The stream of a run has at most one final result and it is the last message: success with the identifier of the run exactly if the run succeeded, and then its context is kept under that identifier and its values can be asked for; failure if it failed; none if it panicked; in the last two cases nothing is kept. The parts of a pipeline are executed in their order up to the first one that fails, and what the client gets for a request is what the context holds directly after the part of that request; a request with an unknown key fails before its own part is executed. A request with a part that there is not, at any depth, or an initial value under an unknown key, gets no message at all, and the python client raises an attribute error. Once the client is gone no further part changes anything. A run of the python client that returns leaves the contexts of the service as they were, whether the run succeeded or not; one whose callback raises, or that is gone before the end, can leave a context for ever. Other runs are never touched.", "quantifier": "for every pipeline of any depth, all initial values, all parts, every state of the service and every point at which the client goes away (which values the requests get: for pipelines without nested ones)", "why_tests_cant": "The moment at which a client goes away, the depth of pipelines and what parts do is arbitrary; that nothing is left over in the service is a statement about all runs of client and service together.", "anchors": ["src/rust/ficus_backend/src/grpc/backend_service.rs: execute_pipeline, get_context_value, drop_execution_result, execute_grpc_pipeline, to_pipeline, find_default_part", "src/rust/ficus_backend/src/grpc/get_context_pipeline.rs: GetContextValuePipelinePart", "src/rust/ficus_backend/src/grpc/logs_handler.rs: LogMessageHandlerImpl", "src/rust/ficus_backend/src/grpc/converters.rs: create_initial_context, put_into_user_data", "src/rust/ficus_backend/src/pipelines/pipelines.rs: Pipeline, DefaultPipelinePart", "src/rust/ficus_backend/src/utils/performance/performance_cookie.rs: performance_cookie", "src/python/ficus/grpc_pipelines/grpc_pipelines.py: Pipeline2"]}
{"id": "C142", "title": "What the backend reads from an XES file is what the document says", "statement": "For every document whose traces hold no traces, whose events hold no events and whose globals hold no globals, and whose attributes can be unescaped, the backend's reader returns a log with one trace per element `trace`, in order; in it one event per element `event` that has a name and a date, of its own or by the defaults of the first global of scope `event` before the trace; each payload value is the last one under its key, else the default; the first global of every scope, all extensions, classifiers and properties in order. White space and comments never matter. A file cut off inside of a trace, an event or a global is read for ever, an error at the level of the log silently ends the log and one inside of a trace the trace, an ampersand that starts no entity panics; nested attributes, self-closing traces and events, attributes of traces and globals without a scope are lost or moved.", "quantifier": "all documents of any depth and size, all texts, all codecs of dates, numbers and escaping", "why_tests_cant": "The reader is a set of nested loops over a token stream; which loop consumes a token depends on everything before it, and documents are unbounded trees. Test files cover a few well-formed logs only.", "anchors": ["src/rust/ficus_backend/src/event_log/xes/reader/file_xes_log_reader.rs:read_event_log", "src/rust/ficus_backend/src/event_log/xes/reader/file_xes_log_reader.rs:try_read_global", "src/rust/ficus_backend/src/event_log/xes/reader/xes_log_trace_reader.rs:try_parse_event_from", "src/rust/ficus_backend/src/event_log/xes/reader/utils.rs:extract_payload_value", "src/rust/ficus_backend/src/event_log/xes/xes_event_log.rs:XesEventLogImpl"]}
{"id": "C143", "title": "A log that the backend writes to XES and reads again is the log, up to a stated loss", "statement": "For every log with maps of different keys: what the writer writes, with any white space, is read as the traces that are not empty, in order, with the events whose date can be read back, with their names and values as read back from their tags and texts, completed by the defaults of events; the globals that are not empty; the properties sorted by name; extensions, classifiers and scopes with their texts still escaped. Numbers come back as 64-bit ones, lifecycles as strings, timestamps and too large numbers are lost. A log that was itself read from a document with its defaults before its traces comes back the same in its traces, defaults and properties; with defaults after a trace it does not.", "quantifier": "all logs, all values, all codecs for which unescaping undoes escaping and which read again what they wrote for values they read", "why_tests_cant": "The loss depends on the kinds of the values, on the order of globals and traces and on characters in names; a test round-trips one file and compares it with a golden text.", "anchors": ["src/rust/ficus_backend/src/event_log/xes/writer/xes_event_log_writer.rs:serialize_event_log", "src/rust/ficus_backend/src/event_log/xes/writer/xes_event_log_writer.rs:write_payload_tag", "src/rust/ficus_backend/src/event_log/xes/reader/file_xes_log_reader.rs:read_event_log", "src/rust/ficus_backend/src/event_log/core/event/event.rs:EventPayloadValue"]}
{"id": "C144", "title": "Position entropies of the backend", "statement": "For a new log, after any sequence of questions and copies, both functions of the backend count for each position the traces that have the event there once the ignored events are dropped, and the traces that stay non-empty; over all events they never panic, give the same map with exactly the names that are left, in every order of iteration of the sets and maps, and these are the values of the python library. The values that a trace keeps for this are not renewed when events are removed, renamed or added: afterwards the fast function can panic or miss an event, and both can panic with ignored names, until the log is copied. The functions for one event panic on a log without traces, and the fast one differs for an ignored name.", "quantifier": "for every log, every event, every set of ignored names, every order of iteration and every sequence of questions and copies", "why_tests_cant": "The equality of a merge of sorted positions with a plain count, and the independence from what was asked before, are statements about all logs and all histories; the tests compare a few logs that are asked once.", "anchors": ["src/rust/ficus_backend/src/features/analysis/entropy/pos_entropy.rs: calculate_pos_entropies, calculate_pos_entropy_for_event", "src/rust/ficus_backend/src/features/analysis/entropy/pos_entropy_fast.rs: calculate_pos_entropies_fast, calculate_pos_entropy_for_event_fast", "src/rust/ficus_backend/src/features/analysis/entropy/shared.rs: calculate_max_vector_length, calculate_pos_entropy, calculate_entropies", "src/rust/ficus_backend/src/event_log/core/event/events_holder.rs: EventsHolder, EventSequenceInfo, EventsPositions"]}
{"id": "C145", "title": "Entropies of the directly follows relation in the backend", "statement": "For every log the plain and the smoothed entropies of the backend are those of the python library, name by name and in every order of iteration: the entropy of the shares of the followers plus that of the shares of the predecessors, with an artificial event at both ends and without the ignored names; exactly the names that are left have one, and it lies between 0 and twice the binary logarithm of their number plus one, if no event has an artificial name.", "quantifier": "for every log, every set of ignored names, both kinds of ratios and every order of iteration", "why_tests_cant": "The agreement of two implementations in two languages, and the bounds, hold for all logs or not at all; the tests compare numbers for single logs.", "anchors": ["src/rust/ficus_backend/src/features/analysis/entropy/dfg_entropy.rs: calculate_laplace_dfg_entropy, calculate_default_dfg_entropy, calculate_dfg_entropy, calculate_entropy", "src/rust/ficus_backend/src/features/analysis/event_log_info.rs: EventLogInfo", "src/python/ficus/legacy/analysis/event_log_analysis_entropy.py: calculate_laplace_or_default_entropies"]}
{"id": "C146", "title": "Nodes and edges of the fuzzy miner of the backend", "statement": "The first steps of the fuzzy miner never fail. The nodes are the names that occur more often than the threshold, each once. If the ratio threshold is not negative, there is an edge exactly from a to b if the pair occurs directly more often than its threshold, if it does not lose a conflict with the other direction (both are frequent and the relative share of one is below the threshold; then a direction only stays if its share is larger by more than the ratio), and if its usefulness, scaled by the least and the greatest usefulness of the edges to b, is not below the cutoff; its weight is the number of times b directly follows a. None of this depends on the order of hash maps. With a cutoff of at most one each activity keeps its most useful incoming edge. With a negative ratio the edges depend on the order of iteration.", "quantifier": "for every log, all thresholds (not negative ratios for the edges), every difference of times and every order of iteration", "why_tests_cant": "That no order of hash maps changes the edges, although the conflicts are resolved and the edges removed one after another, cannot be seen in single runs.", "anchors": ["src/rust/ficus_backend/src/features/discovery/fuzzy/fuzzy_miner.rs: initialize_fuzzy_graph, resolve_conflicts, filter_edges", "src/rust/ficus_backend/src/features/discovery/fuzzy/fuzzy_metrics_provider.rs: FuzzyMetricsProvider", "src/rust/ficus_backend/src/utils/graph/graph.rs: Graph", "src/python/ficus/grpc_pipelines/discovery_parts.py: DiscoverFuzzyGraph"]}
{"id": "C147", "title": "Clusters of the fuzzy miner of the backend", "statement": "The fuzzy miner never fails and always ends. Each node of the graph before the clusters belongs to exactly one node of the result: to a cluster exactly if its activity occurs less often than the cutoff and it has an edge to another node or another node has an edge to itself, else to itself. The name of a cluster lists the names of its members. There is an edge between two different nodes exactly if there was one between their members, with the sum of the weights; the edges inside of a cluster are gone. The members of a cluster are joined by edges or by nodes with an edge to themselves inside of it; clusters are merged with the most correlated one, until each cluster with outgoing (incoming) edges has one to (from) an activity outside of clusters; and a node is with its most correlated partner if that is visited before it and is in a cluster. If no activity occurs less often than the cutoff there are no clusters, so the default arguments give the graph of direct successions with their counts. Which nodes share a cluster depends on the order of iteration; activities without any neighbour can get into a cluster, and rare activities with incoming edges only stay outside.", "quantifier": "for every log, all thresholds, every difference of times and every order of iteration", "why_tests_cant": "The clusters are merged until nothing changes, in the order of hash maps; that this ends and that nodes and weights are kept is a statement about all logs and orders.", "anchors": ["src/rust/ficus_backend/src/features/discovery/fuzzy/fuzzy_miner.rs: discover_graph_fuzzy, discover_clusters, find_initial_clusters, merge_clusters, merge_nodes, try_merge_clusters, find_most_correlated_cluster, clusters_correlation", "src/rust/ficus_backend/src/utils/graph/graph_clusters.rs: merge_nodes_into_one, find_incoming_edges, find_outgoing_edges, adjust_transitions_for_cluster", "src/rust/ficus_backend/src/utils/graph/graph.rs: all_connected_nodes", "src/rust/ficus_backend/src/utils/sets/one_set.rs: OneSet", "src/python/ficus/grpc_pipelines/discovery_parts.py: DiscoverFuzzyGraph"]}
{"id": "C148", "title": "Edit distance of the backend", "statement": "For rows of the same length the distance of edits is always a number, and it is the edit distance: the least number of insertions, deletions and replacements that make the second row of the first. So it does not depend on the order of the rows and is zero exactly for equal rows.", "quantifier": "for all pairs of rows of the same length", "why_tests_cant": "Least numbers of edits range over all sequences of edits.", "anchors": ["src/rust/ficus_backend/src/utils/distance/distance.rs: LevenshteinDistance"]}
{"id": "C149", "title": "Cosine distance of the backend", "statement": "The cosine distance is a number exactly if both rows have an entry that is not zero; it is symmetric, between zero and two (and at most one for rows without negative entries), and zero exactly for rows that are positive multiples of each other.", "quantifier": "for all pairs of rows of the same length, over the real numbers", "why_tests_cant": "The inequality of Cauchy and Schwarz is behind the range and the case of equality.", "anchors": ["src/rust/ficus_backend/src/utils/distance/distance.rs: CosineDistance"]}
{"id": "C150", "title": "Data set of the counts of traces", "statement": "For a distance other than that of edits the data set of the traces is always made: a row for each trace, a column for each class of the (underlying) events of the traces, in alphabetic order, and as values the numbers of events scaled to the range from zero to one per column, or one if all are equal. Hash maps do not matter. Two rows are equal exactly if the traces have the same classes up to the order.", "quantifier": "for every log, every source of the representation, every class extractor and every order of iteration", "why_tests_cant": "That scaling loses no difference and that no order matters is about all logs.", "anchors": ["src/rust/ficus_backend/src/features/clustering/traces/dbscan.rs: create_traces_dataset_default_internal, create_trace_representation", "src/rust/ficus_backend/src/features/clustering/common.rs: scale_raw_dataset_min_max, transform_to_ficus_dataset", "src/python/ficus/grpc_pipelines/activities_parts.py: ClusterizeLogTracesDbscan"]}
{"id": "C151", "title": "Data set of the words of traces", "statement": "For the distance of edits the data set has a row for each trace: its classes as numbers from one on, different for different classes, and then zeros up to a width that is one more than the longest trace. Two rows are equal, and their distance is zero, exactly if the traces have the same classes in the same order.", "quantifier": "for every log, every source of the representation and every class extractor", "why_tests_cant": "The numbering has to be injective for all logs.", "anchors": ["src/rust/ficus_backend/src/features/clustering/traces/dbscan.rs: create_traces_dataset_levenshtein_internal", "src/python/ficus/grpc_pipelines/activities_parts.py: ClusterizeLogTracesDbscan"]}
{"id": "C152", "title": "Data set of activities", "statement": "If the data set of activities is made, it has a row for each name of the activities of the level, in alphabetic order, with the counts of classes of the repeat set of the first instance with the name: by events, by underlying events, or one for each class. It is made if the repeat sets are in the log; by event classes it is an error if an activity has no repeat set, as those that clustering itself makes.", "quantifier": "for every log, all instances of activities, every level, source and class extractor and every order of iteration", "why_tests_cant": "Which instance stands for an activity and what is counted has to hold for all logs and orders.", "anchors": ["src/rust/ficus_backend/src/features/clustering/activities/activities_common.rs: create_dataset_internal, create_activities_repr_from_subtraces, create_dataset_from_activities_classes, update_event_classes", "src/python/ficus/grpc_pipelines/activities_parts.py: ClusterizeActivitiesFromTracesDbscan"]}
{"id": "C153", "title": "Logs of clusters of traces", "statement": "Clustering of traces always succeeds (given a label per row and enough colours). It gives one log for each label that occurs, with the traces of that label in the order of the log; no log is empty and every trace is in exactly one. Noise has label zero, others have one more than the number of the cluster.", "quantifier": "for every log, every distance and source, every clustering and every order of iteration", "why_tests_cant": "A partition of all traces for every clustering cannot be enumerated.", "anchors": ["src/rust/ficus_backend/src/features/clustering/traces/dbscan.rs: clusterize_log_by_traces_dbscan", "src/python/ficus/grpc_pipelines/activities_parts.py: ClusterizeLogTracesDbscan"]}
{"id": "C154", "title": "Merging of clustered activities", "statement": "Clustering of activities (by density or by means) replaces each instance of an activity in a cluster of at least two activities by one of a new activity with the name of the cluster, the classes of all members, the level of the first and no repeat set, and leaves others; then maximal runs of instances of one name that touch become one instance. The covered positions and the sum of the lengths stay the same. Touching instances of one name are joined even if there is no cluster. It succeeds whenever the data set can be made and there are enough colours.", "quantifier": "for every log, all instances, every clustering and every order of iteration", "why_tests_cant": "Runs can have any length and clusters any shape.", "anchors": ["src/rust/ficus_backend/src/features/clustering/activities/merging.rs: merge_activities", "src/rust/ficus_backend/src/features/clustering/activities/dbscan.rs: clusterize_activities_dbscan", "src/rust/ficus_backend/src/features/clustering/activities/k_means.rs: clusterize_activities_k_means", "src/python/ficus/grpc_pipelines/activities_parts.py: ClusterizeActivitiesFromTracesDbscan, ClusterizeActivitiesFromTracesKMeans"]}
{"id": "C155", "title": "Colours of clusters", "statement": "A name never changes its colour, and colours are equal exactly if they are of the same name; so two rows of a labelled data set have the same colour exactly if they have the same label. A colour is found as long as there are unused ones. With clusters by density the rows of a cluster do not have the colour of the activity that their instances now have, but that of the next cluster, and noise has the colour of the activity of cluster zero.", "quantifier": "for every holder of colours reached from the empty one, all names and labels and every sequence of random colours", "why_tests_cant": "Random colours can collide; no test can wait for it.", "anchors": ["src/rust/ficus_backend/src/utils/colors.rs: ColorsHolder, Color", "src/rust/ficus_backend/src/features/clustering/common.rs: create_colors_vector, create_cluster_name", "src/rust/ficus_backend/src/utils/dataset/dataset.rs: LabeledDataset"]}
{"id": "C156", "title": "Grid search for clusters of activities", "statement": "The grid search gives what clustering by means gives for the number of clusters, from two to one less than the number of activities, with the greatest silhouette score above minus one, the least such number; scores that are not numbers are left out. It is an error if there is none, so always with fewer than three activities, and if a score cannot be computed.", "quantifier": "for every log, all instances, every clustering and every score", "why_tests_cant": "The maximum over all numbers of clusters for any score function.", "anchors": ["src/rust/ficus_backend/src/features/clustering/activities/k_means.rs: clusterize_activities_k_means_grid_search", "src/python/ficus/grpc_pipelines/activities_parts.py: ClusterizeActivitiesFromTracesKMeansGridSearch"]}
{"id": "C157", "title": "Round trip of BXES files", "statement": "Writing a log as BXES succeeds exactly if its globals are those of events, traces or the log (otherwise it is an error) and every date that is written has a number of nanoseconds (otherwise it panics). Reading it gives back the same classifiers, extensions, properties, globals, traces and events in their order with names, dates and attributes, but attributes with the default value of the log do not come back, and numbers of nanoseconds come back as dates.", "quantifier": "for every log, every comparison of floats and every range of dates", "why_tests_cant": "It is about all values in all places of a log; the loss needs a default that some event has.", "anchors": ["src/rust/ficus_backend/src/event_log/bxes/xes_to_bxes_converter.rs: write_event_log_to_bxes, create_bxes_event, is_not_default_attribute, create_bxes_globals", "src/rust/ficus_backend/src/event_log/bxes/bxes_to_xes_converter.rs: read_bxes_into_xes_log", "src/rust/ficus_backend/src/event_log/bxes/conversions.rs: payload_value_to_bxes_value, parse_entity_kind", "src/python/ficus/grpc_pipelines/xes_parts.py: WriteLogToBxes2, ReadLogFromBxes2"]}
{"id": "C158", "title": "Reading of BXES files", "statement": "A file can be read exactly if all names and keys are texts and no value is an artifact, drivers or a type of software events. What is read has every item of the file in its order; of equal keys and of globals of the same kind the last one. A variant gives one trace, whatever the number of traces it stands for, and its metadata is lost. A key that is no text is an error, another value a panic.", "quantifier": "for every content of a file", "why_tests_cant": "Files of other programs can have anything in them.", "anchors": ["src/rust/ficus_backend/src/event_log/bxes/bxes_to_xes_converter.rs: read_bxes_into_xes_log, set_classifiers, set_properties, set_extensions, set_globals, create_xes_event, create_xes_payload", "src/rust/ficus_backend/src/event_log/bxes/conversions.rs: bxes_value_to_payload_value, global_type_to_string", "src/python/ficus/grpc_pipelines/xes_parts.py: ReadLogFromBxes2"]}
{"id": "C159", "title": "Lifecycles", "statement": "Every lifecycle has a text, which is read as that lifecycle and no other; the texts of the two kinds of lifecycles differ, and those of the standard kind are the names of the transitions in the XES standard and one for unspecified. In BXES files a lifecycle is written such that it is read as itself, and nothing else is read as it.", "quantifier": "for all lifecycles of both kinds and all texts", "why_tests_cant": "It is about all texts, not only those of lifecycles.", "anchors": ["src/rust/ficus_backend/src/event_log/core/event/lifecycle/braf_lifecycle.rs: to_string, from_str", "src/rust/ficus_backend/src/event_log/core/event/lifecycle/standard_lifecycle.rs: to_string, from_str", "src/rust/ficus_backend/src/event_log/core/event/lifecycle/xes_lifecycle.rs: Lifecycle", "src/rust/ficus_backend/src/event_log/bxes/conversions.rs: convert_bxes_to_xes_lifecycle, convert_xes_to_bxes_lifecycle"]}
{"id": "C160", "title": "Reduction of the relations of Alpha++ NFC", "statement": "The first rule removes a relation exactly if some class stands between its two classes, judged by the relations before any removal, so the order does not matter. The second rule should leave exactly the relations that do not follow from others; it never removes anything, so it does so exactly if there are none to remove.", "quantifier": "for all relations and all orders of iteration", "why_tests_cant": "That a rule has no effect shows only over all relations.", "anchors": ["src/rust/ficus_backend/src/features/discovery/alpha/alpha_plus_plus_nfc/alpha_plus_plus_nfc.rs: eliminate_by_reduction_rule_1, eliminate_w3_relations_by_rule_2, construct_w3_transitive_closure_cache", "src/python/ficus/grpc_pipelines/discovery_parts.py: DiscoverPetriNetAlphaPlusPlusNfc2"]}
{"id": "C161", "title": "Closure of the relations of Alpha++ NFC", "statement": "The closure has exactly the pairs of classes with a way of relations between them that are not related directly. It is computed in finitely many steps exactly if every class from which a cycle can be reached has a way to all related classes; otherwise the discovery never ends.", "quantifier": "for all relations and all orders of iteration", "why_tests_cant": "Whether the search ends depends on the shape of the whole relation.", "anchors": ["src/rust/ficus_backend/src/features/discovery/alpha/alpha_plus_plus_nfc/alpha_plus_plus_nfc.rs: construct_w3_transitive_closure_cache", "src/python/ficus/grpc_pipelines/discovery_parts.py: DiscoverPetriNetAlphaPlusPlusNfc2"]}
{"id": "C162", "title": "Pairs of sets of Alpha++ NFC", "statement": "The pairs of sets from which places of implicit dependencies are made are exactly the maximal pairs of sets, all related across and unrelated on each side. In general at most one of the pairs that list the same names one after the other is found; with relations that do not follow from two others all are.", "quantifier": "for all classes and relations, all orders of iteration and all hashes", "why_tests_cant": "Maximality is about all sets of classes; the loss happens for every hash function.", "anchors": ["src/rust/ficus_backend/src/features/discovery/alpha/alpha_plus_plus_nfc/w3_pair.rs: W3Pair", "src/rust/ficus_backend/src/features/discovery/alpha/alpha_plus_plus_nfc/alpha_plus_plus_nfc.rs: discover_petri_net_alpha_plus_plus_nfc", "src/rust/ficus_backend/src/features/discovery/alpha/utils.rs: maximize", "src/rust/ficus_backend/src/utils/sets/two_sets.rs: TwoSets"]}
{"id": "C163", "title": "Triples of sets of Alpha++ NFC", "statement": "The triples of sets around loops of length one are exactly the maximal ones in which every class of the third set comes after every class of the first and before every class of the second without a loop of length two, the first two are not parallel and follow not themselves. In general at most one of the triples whose names make the same text is found.", "quantifier": "for all classes and relations, all orders of iteration and all hashes", "why_tests_cant": "Maximality is about all sets of classes; the loss happens for every hash function.", "anchors": ["src/rust/ficus_backend/src/features/discovery/alpha/alpha_plus_plus_nfc/alpha_plus_plus_nfc_triple.rs: AlphaPlusPlusNfcTriple", "src/rust/ficus_backend/src/features/discovery/alpha/alpha_plus_plus_nfc/alpha_plus_plus_nfc.rs: discover_petri_net_alpha_plus_plus_nfc", "src/rust/ficus_backend/src/features/discovery/alpha/utils.rs: maximize"]}
{"id": "C164", "title": "Net of Alpha++ NFC", "statement": "The places are made from the pairs and extended sets that are not the outer sets of a triple and from the triples, one of each hash. The net is well formed; its transitions are the classes and the loops, none silent; each place has one arc from each transition of its first set and one to each of its second set. It has no initial and no final marking. The discovery panics exactly if a place has a name that is no class.", "quantifier": "for all sets, classes and loops, all orders of iteration and all hashes", "why_tests_cant": "It is about every net that can result.", "anchors": ["src/rust/ficus_backend/src/features/discovery/alpha/alpha_plus_plus_nfc/alpha_plus_plus_nfc.rs: discover_petri_net_alpha_plus_plus_nfc", "src/python/ficus/grpc_pipelines/discovery_parts.py: DiscoverPetriNetAlphaPlusPlusNfc2", "src/rust/ficus_backend/src/features/discovery/petri_net/petri_net.rs: connect_transition_to_place, connect_place_to_transition"]}
{"id": "C165", "title": "Extended sets of Alpha++ NFC", "statement": "The sets found by Alpha, extended by classes of implicit dependencies, are exactly the maximal extensions in which all classes of the first side imply those of the second and the new classes of a side are apart from the old ones. In general at most one of the extensions of a set whose names make the same text is found, so a class that fits on either side, but not on both, loses one.", "quantifier": "for all sets, classes and relations, all orders of iteration and all hashes", "why_tests_cant": "Maximality is about all sets of classes; the loss happens for every hash function.", "anchors": ["src/rust/ficus_backend/src/features/discovery/alpha/alpha_plus_plus_nfc/extended_alpha_set.rs: ExtendedAlphaSet", "src/rust/ficus_backend/src/features/discovery/alpha/alpha_plus_plus_nfc/alpha_plus_plus_nfc.rs: discover_petri_net_alpha_plus_plus_nfc"]}
{"id": "C166", "title": "Distant classes in Alpha++ NFC", "statement": "Asked for the first time whether one class follows another at a distance, the provider of relations answers by the log and the causal relations added so far: never directly, and somewhere with known classes between that are no alternatives to the first. Later it repeats that answer whatever relations were added since, so it can tell what no longer holds.", "quantifier": "for all logs and relations and all sequences of questions and added relations", "why_tests_cant": "Answers depend on the history of questions, of which tests see few.", "anchors": ["src/rust/ficus_backend/src/features/discovery/alpha/providers/alpha_plus_nfc_provider.rs: right_double_arrow_relation, calculate_right_double_arrow_relation, left_triangle_relation, right_triangle_relation, causal_relation, add_additional_causal_relation", "src/rust/ficus_backend/src/features/discovery/alpha/providers/relations_cache.rs: RelationsCache"]}
{"id": "C167", "title": "Implicit dependencies in Alpha++ NFC", "statement": "Asked for the first time about two classes, the provider of relations finds an implicit dependency of each of the three kinds exactly if it is there by the net, the log and the relations added so far, except that which classes are distant may be as of an earlier time. As long as nothing was added the order of the questions does not matter. Later answers repeat the first one, even with another net. Only the third kind can panic, and not if all classes are transitions of the net.", "quantifier": "for all logs, relations and nets and all sequences of questions and added relations", "why_tests_cant": "Answers depend on the history of questions and on all nets.", "anchors": ["src/rust/ficus_backend/src/features/discovery/alpha/providers/alpha_plus_nfc_provider.rs: w1_relation, w21_relation, w22_relation, w3_relation, concave_arrow_relation, get_pre_or_post_set", "src/rust/ficus_backend/src/features/discovery/alpha/providers/relations_cache.rs: RelationsCache, RelationsCaches"]}
{"id": "C168", "title": "Tree of intervals of the backend", "statement": "A tree is made of some intervals exactly if there is one and none ends before it begins, in at most as many rounds as there are intervals; no interval at all is a panic and an interval that ends before it begins makes the loop run forever. A search for a point gives exactly the intervals that contain it, a search for a range those that contain an element of it, each once and ordered by the left ends. A search for envelopes gives intervals inside the bounds and all of them except perhaps points at the right bound, whatever position the binary search chooses; bounds that are not left before right give nothing.", "quantifier": "for all lists of intervals over all ordered types, all points, ranges and bounds, all orders of iteration and all binary searches", "why_tests_cant": "It is about all shapes of the tree and about every position a binary search may give among equal elements.", "anchors": ["src/rust/ficus_backend/src/utils/interval_tree/interval_tree.rs: new, search_overlaps_for_point, search_envelopes, search_overlaps_for_interval", "src/rust/ficus_backend/src/utils/interval_tree/interval.rs: contains", "src/rust/ficus_backend/src/utils/interval_tree/node.rs: Node"]}
{"id": "C169", "title": "Searches for implicit dependencies in Alpha++ NFC", "statement": "The discovery finds of the first kind exactly the pairs of classes with such a dependency by the log and the first net. It takes them for causes and finds of the second kind exactly the pairs with such a dependency by the next net, keeps those that no class between explains, takes them for causes too, and finds of the third kind exactly the pairs with such a dependency by the net after that. Only the answers about distant classes may each be as of an earlier search; if the earlier searches find nothing they are not out of date. The searches do not panic if all classes are transitions of the nets.", "quantifier": "for all logs and relations, all nets, all orders of iteration and all questions asked in between", "why_tests_cant": "The searches share caches whose contents depend on all earlier questions.", "anchors": ["src/rust/ficus_backend/src/features/discovery/alpha/alpha_plus_plus_nfc/alpha_plus_plus_nfc.rs: discover_petri_net_alpha_plus_plus_nfc, eliminate_by_reduction_rule_1", "src/rust/ficus_backend/src/features/discovery/alpha/providers/alpha_plus_nfc_provider.rs: w1_relation, w2_relation, w3_relation, add_additional_causal_relation"]}
{"id": "C170", "title": "The alpha algorithms end", "statement": "The merging of sets in Alpha, Alpha+ and Alpha++ NFC ends, also if different sets have the same hash; the sets found have only classes of the log, and the pairs of sets are valid for the relations. So Alpha ends with a well formed net with a transition for each class for every log. Alpha+ does so if no trace has fewer than two events and no class that comes directly after itself begins or ends a trace, and panics otherwise.", "quantifier": "for all logs, all relations, all hash functions and all orders of iteration", "why_tests_cant": "Tests run with one hash function and cannot show that a loop ends for every log.", "anchors": ["src/rust/ficus_backend/src/features/discovery/alpha/utils.rs: maximize", "src/rust/ficus_backend/src/features/discovery/alpha/alpha.rs: discover_petri_net_alpha, discover_petri_net_alpha_plus, create_initial_sets, maximize_sets, create_petri_net", "src/rust/ficus_backend/src/features/discovery/alpha/alpha_plus_plus_nfc/alpha_plus_plus_nfc.rs: discover_petri_net_alpha_plus_plus_nfc"]}
{"id": "C171", "title": "Nets on the way of Alpha++ NFC", "statement": "The first net of Alpha++ NFC can be made for every log, and has two transitions for each class that comes directly after itself. The nets after the first and the second search can be made, whatever was added, exactly if no class that comes directly after itself begins or ends a trace. They are well formed nets whose places are pairs of sets of the relations with the added ones. The three searches end for every such log without short traces, and find the implicit dependencies by these nets; for other logs they panic.", "quantifier": "for all logs, all hash functions, all added relations and all orders of iteration", "why_tests_cant": "It is about all logs and about every set of relations that the searches may add.", "anchors": ["src/rust/ficus_backend/src/features/discovery/alpha/alpha_plus_plus_nfc/alpha_plus_plus_nfc.rs: discover_petri_net_alpha_plus_plus_nfc", "src/rust/ficus_backend/src/features/discovery/alpha/alpha.rs: discover_petri_net_alpha_plus, create_petri_net", "src/rust/ficus_backend/src/features/discovery/alpha/providers/alpha_plus_nfc_provider.rs: AlphaPlusNfcRelationsProvider"]}
{"id": "C172", "title": "The net of Alpha++ NFC", "statement": "Alpha++ NFC panics exactly if a trace has fewer than two events or a class that comes directly after itself begins or ends a trace. Otherwise its searches end, and if the closure of the third kind of dependencies can be computed it ends with a well formed net that has exactly one transition for each class of the log, none silent, and no markings. Each place stands for three sets of classes of which each of the third comes between each of the first and the second, for a pair of sets of classes that depend on each other by the third kind, or for a valid pair of sets of the relations with the first kind of dependencies, extended by classes that depend on it by the first two kinds (several such pairs together if hashes collide), with one arc from each class of the first side and one to each of the second. If the closure cannot be computed it never ends, and there are logs for which it cannot.", "quantifier": "for all logs, all hash functions, all orders of iteration and all answers about distant classes", "why_tests_cant": "It is about the whole algorithm on all logs, whose parts can panic or run forever.", "anchors": ["src/rust/ficus_backend/src/features/discovery/alpha/alpha_plus_plus_nfc/alpha_plus_plus_nfc.rs: discover_petri_net_alpha_plus_plus_nfc, construct_w3_transitive_closure_cache", "src/rust/ficus_backend/src/features/discovery/alpha/alpha.rs: discover_petri_net_alpha, discover_petri_net_alpha_plus", "src/rust/ficus_backend/src/features/discovery/alpha/utils.rs: maximize"]}
{"id": "C173", "title": "The pairs and first tuples of alpha sharp", "statement": "Alpha sharp panics exactly if a trace has fewer than two events. Otherwise it prints exactly the pairs of classes that are in the advanced relation and not redundant, each once: the first leads to the second, and there are a class to which the first leads and a class that leads to the second such that the one never comes directly after the other and they do not go together with the second and the first. The tuples that it prints next are made of such a pair and two classes that do not go together, and for all such classes there is one, or one with the same hash.", "quantifier": "for all logs, all hash functions and all orders of iteration", "why_tests_cant": "It is about all logs; the code only prints and is called by no test.", "anchors": ["src/rust/ficus_backend/src/features/discovery/alpha/alpha_sharp.rs: discover_petri_net_alpha_sharp, AlphaSharpTuple::try_create_new, AlphaSharpTuple::valid", "src/rust/ficus_backend/src/features/discovery/alpha/providers/alpha_sharp_provider.rs: advanced_ordering_relation, redundant_advanced_ordering_relation"]}
{"id": "C174", "title": "The merged tuples of alpha sharp", "statement": "All tuples that alpha sharp prints at the end are valid: the first classes of the input are in the advanced relation to the last ones of the output, the others do not go together and the pairs of one side do; and no two of them can be merged to a valid one.", "quantifier": "for all logs, all hash functions and all orders of iteration for which the merging ends", "why_tests_cant": "Whether a copy of a tuple is made depends on which other tuples are merged in the same round.", "anchors": ["src/rust/ficus_backend/src/features/discovery/alpha/alpha_sharp.rs: AlphaSharpTuple::try_merge, AlphaSharpTuple::valid, clone", "src/rust/ficus_backend/src/features/discovery/alpha/utils.rs: maximize"]}
{"id": "C175", "title": "Iterators over a log", "statement": "A loop over the iterator of a log and over those of its traces ends and gives what the function makes of every event, once and in the order of the log. After any calls of next and step_back, the iterator of a trace gives the events from its position on; the position goes one on or back with each call and never leaves the trace, and there is no next event exactly at the end.", "quantifier": "for all logs, all functions and all sequences of calls", "why_tests_cant": "The position depends on the whole sequence of calls.", "anchors": ["src/rust/ficus_backend/src/event_log/core/log_iterator.rs: LogIterator::next, TraceIterator::next, TraceIterator::step_back"]}
