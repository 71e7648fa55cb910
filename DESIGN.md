# Formal model of Ficus: design

Object of study: `/repo/src/python/ficus` (packages `legacy` and `grpc_pipelines`) at the pinned commit, and from C110 on parts of
the backend `/repo/src/rust/ficus_backend/src` that compute what the remote pipelines of python ask for.
The code was read as text only. Nothing in `/repo` was run.

## 1. Trusted base

* The Lean 4.33.0 kernel, and the Mathlib build shipped with the sandbox.
* Axioms: only `propext`, `Classical.choice`, `Quot.sound` (the usual Lean ones). No axioms, `sorry`,
  `native_decide` or `bv_decide` are used. Section 6 gives the list per theorem.
* The correspondence between each Lean definition and the cited python lines. It was made by reading.
  Each definition has a comment with file and lines and says what is simplified.
* Python semantics as encoded in `Verif/Model/Py.lean`: insertion-ordered dictionaries (association lists with unique
  keys), lists, exceptions as values of `Except PyErr`, unbounded integers.
* Facts about libraries encoded in definitions: reading an unset protobuf message field gives the default message
  (`readField`), and the ends of an edge in `graphviz` are cut at the first colon (`endNode`), both in Model/Nets; protobuf
  raises `ValueError` for integers outside of an unsigned field and `TypeError` for a message of another type (Model/Front,
  Model/Values). The conversion of floats to 32 bits is a parameter.

## 2. Layout

| directory | content |
|---|---|
| `lean/Verif/Model/*.lean` | the model, function by function, each definition citing `/repo` |
| `lean/Verif/Spec/*.lean` | small independent specifications used in the statements |
| `lean/Verif/Proofs/*.lean` | helper lemmas |
| `lean/Verif/Props/*.lean` | the property theorems, each with an `example` of a non-trivial instance |

## 3. Modelling decisions

* A python dictionary is an association list in insertion order; assignment to an existing key keeps its place.
* Logs: lists of traces, traces: lists of events. Unless aliasing is the subject of the property, events are values.
  The aliasing properties (C43, C50) use an explicit heap of event objects and contexts.
* `while` loops whose termination is a property are modelled as one-step functions iterated with fuel, and termination is
  the theorem that some fuel (with a stated bound) suffices; other loops are folds or structural recursion.
* Floating point: entropies are modelled over the reals (`Real.log`), ratios over the rationals or reals. Rounding,
  and numpy's `nan`/`inf` results, are not modelled except where said.
* Rust (files `Rs*.lean`, namespace `Ficus.Rs`): a `HashMap` is an association list, and the order in which a loop visits it is a
  parameter `Iter`, any family of permutations, so that theorems hold for every order. A panic is `none`. Unsigned numbers are `Nat`
  without overflow. `DefaultHasher` is a parameter.
* External code is a parameter: `suffix_tree`, `intervaltree`, `random`, `uuid`, `dateutil`, `hash` of python objects,
  the gRPC server. The XML text layer (`ElementTree` parsing and printing) is not modelled; XES is modelled at the level of
  element trees.

## 4. Properties: what is modelled and how it is proved

* C01 util.py hash loops as folds over `Int` with `%`; closed form by induction, range by `Int.emod_lt`.
* C02 dict hash: sort of the joined strings; permutation invariance of sorting.
* C03 `=>` from C02; the converse is refuted by a concrete pair of payloads; `_partial` theorem when the joined strings
  and the hashes are collision free.
* C04 `split`/`join` on lists of characters; induction on the traces.
* C05 XES at element level; round trip under explicit hypotheses (`_partial`), one refutation per failing clause. Proofs/XesExact
  inverts writing and reading: the hypotheses are necessary, logs that were read meet most of them, and a second round trip
  changes nothing. Props/XesWrite states which entries are written, and exactly which exception writing raises and when.
* C06, C07, C08 mutations as list filters; equational reasoning with specification in terms of `List.filter` on names,
  positions and counts.
* C09, C10, C11, C12 scans as folds over an explicit state; invariant = counts over the processed prefix.
* C13, C14 iterated refinement; invariant: groups are the classes of "same length and same hashes up to index".
* C15 concatenation, freshness from a hypothesis on the identifier stream.
* C16 sums over `ℝ`/`ℚ` from C10; non-negativity of `-x log x` on [0,1].
* C17, C18 index arithmetic: positions minus the number of smaller ignored positions equals the index in the filtered trace.
* C19 real analysis on top of C17.
* C20-C23 loop over an abstract metric; measure: number of remaining event names; refutations by concrete metrics. `C23_runs`
  characterises all runs of the indirect filter exactly (which choices, when it ends).
* C24-C26 (Model/Tandem) list windows; the search is one fold, its invariant characterises the reported blocks exactly.
  C25 and C26 fail as stated, with witnesses; the characterisations are the partial theorems.
* C27 (Model/Activity) fold with first-occurrence dedupe. C28 forest by sizes, invariant over the processed prefix.
* C29-C31, C53 (Model/Extract) one-step scan with explicit state; invariant "instances are sorted, disjoint, before the
  cursor"; uniqueness of the greedy segmentation by induction on the trace. Fuel adequacy is part of C29.
* C32-C37, C54 (Model/Abstraction) interval tiling, nested events as an inductive type, mutual induction for flattening;
  C37 the breadth-first queue with fuel, adequate by the size of the nested event.
* C38-C40, C55 (Model/Classes) folds with grouping dictionaries, trees of class extractors.
* C41-C43 (Model/Pipeline, Model/Parts) part semantics as state transformers on a heap of contexts; relational frame
  conditions (`Confined`, `Creating`) proved by mutual induction over nested parts.
* C44, C45 (Model/Colors) provider as a state machine fed by a list of random triples; histories of operations.
* C46 (Model/Rounds) loop with fuel; measure: number of events of the log. The search for repeats is an oracle, the rest
  of a round is the modelled code.
* C47-C49 (Model/Remote) stream processing as structural recursion with a list of effects; parts as an inductive type;
  dictionary frame lemma; refutation for C49.
* C50, C56 (Model/Heap) heap of event, trace and log objects with references; copies, deep copies with memo, in-place
  mutation under arbitrary sharing.
* C51, C52 (Model/Filters) the remaining filters, same loop as C20-C23. The runs of the positional indirect filter are
  characterised exactly (Spec/TillEnd, C51_runs and C51_till_end_runs).
* C57-C59 (Model/Levels) one round as a function of a heap of activity lists and a context; induction over the list of
  class extractors with the invariant "the instances fit the log"; built on C28, C29, C35 and C36. C58 and C59 fail as
  stated, with witnesses; the theorems with hypotheses are partial.
* C60-C63 (Model/Reports) stack and queue traversals with fuel, adequate by the number of nodes; C60 closure invariant
  "with every name the names of the children of some node of that name", completeness is partial with a witness; C61 the
  layers of the forest; C62 prefix decoding of digits; C63 sums over C35.
* C64 (Model/Reports on Model/Heap) tagging as a list of assignments; the last assignment to an event wins; positions are
  separated by the hypothesis that no event object occurs twice.
* C65 (Model/Abstraction) the fill is the scan of C32 with an appending callback; stable insertion sort by start.
* C66, C67, C68 (Model/Nets) folds of `set`; lemma: folding `set` gives the keys without repetition and the last value per
  key; statements of a graph as a list; texts of numbers are injective and have no colon.
* C69 (Model/Nets) nested recursion over the forest with the set of added names; an invariant (everything added is in the
  forest, and with every added name some node of that name has all its children and edges added) by mutual induction.
* C70-C72 (Model/Diagrams) a drawing is the list of rectangles (and texts) in the order in which they are handed to the
  library; the colour at a point is that of the last rectangle that contains it. Induction over the rows and pieces with
  the current x and y; rectangles of a row are disjoint, so that "seen" is "contains". The colours come from the provider
  of C44, C45.
* C73-C75 (Model/Diagrams) the loop over the sub traces of a trace as structural recursion; its pieces are the segments
  (sub traces and maximal gaps) of the trace; invariants on the table of colours (`GStep`, `Stable`) and on the provider.
* C76-C78 (Model/Front) every remote part class with the parameters that are sent, as an object of the remote pipelines of
  C47; configurations are built entry by entry. A decoder from messages to parts, proved to be a left inverse up to what is
  kept, gives C76; mutual induction over nested pipelines gives C77 and C78.
* C79 (Model/Values) the context values and their conversion; loops with accumulators, related to the specification
  `Arrives` / `Rejected` by induction.
* C80 (Model/Backend) the part of the Rust backend that reads messages: registered names, keys and types of parameters,
  names of enumeration members, values that can be sent back. Mutual induction over nested pipelines relates the reading of
  the messages of C76 to the specification `asks`.
* C81 (Model/Library) every class of local parts as a user of contexts: which values it reads in which order, which
  context it changes or creates. The functions that a part calls are parameters (`Ext`) that may raise and may change
  objects and colours but have no access to contexts; save paths that are functions of the context are such calls too.
  Weakest preconditions (`wp`) for the primitive operations, a lemma for each shape of part, for temporary inputs and for
  copies; mutual induction over nested pipelines against the relation `Does` of Spec/Library. `DiscoverActivitiesUntilNoMore`
  is C46.
* C82-C84 (Model/Repeats) the three searches for repeats. The suffix trees and the iteration order of sets are a
  parameter with the contract `LawfulTrees` (Spec/Repeats), which brute force trees are proved to meet; interval trees are
  sets of intervals. Proof: extension of repeats to maximal ones by induction on the length, the loop over sorted intervals
  by an invariant (visited = inside of a processed one), transport from hashes to classes by injectivity.
* C85 (Model/Datasets) the datasets received from the backend and their pictures, as the list of the calls of matplotlib. What
  is assumed of pandas frames is written at `Frame.ofRows`, `Frame.setColumn` and `Frame.valuesWithout`; the projections of
  sklearn are a parameter, of which only the shape of the result is assumed. The clouds are read from the calls of `scatter`
  by `Spec.clouds`, which turns one list per axis into points.
* C86 (Model/Histograms) the histograms as lists of calls of matplotlib; heights of bars are read from values and edges by
  `Spec.barHeights`, the rule of numpy. The loops over rows and columns by induction with the index of the next log; the
  legend by stability of insertion sort. Builds on C13 (variants) and C44 (colours).
* C87 (Model/Pm4py) the conversions between logs and pm4py logs on the heap of C50. Objects of pm4py have the same shape as
  those of log/event_log.py and live in the same heap; what pm4py does with a log is not modelled. Both conversions are
  instances of one copying loop, whose new references are counted exactly (`List.range'`).
* C88, C89 (Model/LogParts) the local parts that make or change logs, with the arguments they pass on, as functions on the
  heap of C50 that return the current log or an exception; the rest of the context is C81. The specification
  (Spec/LogParts) says what each part means on values, in terms of the functions of C01-C25, C56 and C57. The pipeline
  theorem is a refinement: per part a simulation lemma (loops by `runLoop_matches`, the split into variants by naturality
  under the map from trace objects to traces), composed by induction over the pipeline with the invariant that all objects
  exist and none is used twice. C89 uses footprints: which objects a part may change and which the new log may reach.
  Simplification: a part that reads names raises before it starts if some name is missing (in the code possibly after some
  new objects have been made that nobody can reach; for `FilterTracesByVariants` the code may also not read the name).
* C90, C91 (Model/LogHash) hash and equality of logs on top of C01-C03; python's hash of a pair of integers and the texts of
  values are parameters. The converse (C91) holds up to collisions: the theorem asks for no collision among the pairs that
  are hashed for the two logs and reduces equality of logs to equality of traces and of the four dictionaries.
* C92-C96 (Model/Files) the disk as functions from names to files and directories; `os.path.dirname`, `splitext`,
  `os.makedirs`, `open`, `os.rename`, `shutil.move`, `graphviz.render`/`save` and `savefig` are external and written down as
  far as they are used. Computations on the disk keep what was done before an exception. `Spec.SoundDisk` is the invariant of
  disks (what exists lies in an existing directory), `Spec.Above` the directories above a name. Success is characterised
  exactly (C92_export_iff, C93_saved_iff). Simplification: names are compared as texts (no links, `.`, `..`, doubled slashes),
  no permissions, `dot` draws every source.
* C97, C98 (Model/Discovery) compose the stages of discovery: patterns (C24-C26, C82-C84), repeat sets (C27), forest (C28) and
  extraction (C29, C30). `Spec.Segmentation` states the result in terms of words of classes only; the middle of the proof is
  that classes are together in one activity exactly if they are letters of one pattern (`known_classes`). That all kinds of
  repeats give the same places follows since every repeat lies inside of a super maximal one. The hypothesis
  `Spec.NoCollisions` is about the searched log only: different classes, and factors with different sets of classes, have
  different hashes. For C98 the last round of `RoundRun` (C46) has only instances of single events, so no two neighbours are
  letters of a repeated word; then all activities have one class, and are named after it.
* C99 (Model/Console): what is printed is a text, `print` adds an end of line. The texts are shown equal to lines built from an
  independent count of names and followers; reading back is the injectivity of joining pieces that lack the end mark, used once
  for lines and once for blocks. Contexts are reduced to the log they hold.
* C100 (Model/Discovery, `leftPatterns`) composes the search with the context that `output_merger` makes and with the diagram of
  patterns (C75). That nothing is seen below the first row needs no assumption about where the patterns are.
* C101 (Model/Sequences): items of any type, a list as the state. The methods inherited from `collections.abc.Sequence` are
  modelled as their loops over `__getitem__`, with a bound on the steps that is shown to suffice. `Means` is the separate
  specification of an index. The comparison is a parameter; slices are left out.
* C102 (Model/Labels): the creator of labels is put on top of `build_graph` (C69). Labels of names are inverted by splitting at
  line feeds and joining with `::`; texts of hashes are injective and have no colon. What remains is exactly whether hashes of
  different names differ, which is a hypothesis (`C102_hash_graph_partial`) with a counterexample (`C102_hashes_collide`).
* C103 (Model/Labels): unique reading of texts with nested parentheses, by induction over trees with an arbitrary rest that is
  empty or closes a parenthesis.
* C104 (Model/Summaries): the bounds of C16 and C19 summed up; the bound of the variance is shown by replacing squares of numbers
  in [0, 1] by the numbers. The sorting of pandas is a parameter with two hypotheses (a permutation, in descending order).
* C105 (Model/DrawParts): the parts with their options on top of the diagrams of C72 to C75. Every diagram is a finished picture
  of rows of pieces, which the proofs of these properties give, so that heights, widths and axes follow for all parts at once.
  The two lost options are shown to have no effect (`C105_width_ignored`, `C105_hashes_ignored`).
  Which values of the options raise is said exactly (`C105_fails`), and which pictures the part for levels leaves (`C105_levels`).
* C106 (Model/Curves): the two parts that plot removal till the end, on top of C51 and C52. Which curve belongs to an order of the
  classes is said in Spec/Curves; bounds, gaps and sums are consequences for all such curves. For indirect removal it is shown that
  no run that ends has an iteration without a removal, and that runs cannot end if no class occurs in two traces.
* C107 (Model/Curves, Model/Filters): one unfolding of the loops with a budget of one; that the slow and the fast position entropies
  tell the same removal is C17.
* C108 (Model/ClassGraph): `build_graph` on the class tree. The nodes and parent pairs of the tree are the classes of the event names
  at the levels, by induction over the extractors; with levels apart all names are distinct (C69); with one idempotent extractor every
  root is new when it is reached, so its children are added.
* C109 (Model/DiscoveryParts): the discovery parts with all options and their printed text. That level and names are labels is shown by
  a map on trees that commutes with the construction of the forest, the grouping by size, the scan and the narrowing. The lost options
  are shown to have no effect; for narrowing and for the extractor of `AddAllPatterns` a log is given on which they should have one.
  Creators of names are total functions here, and what is printed before an exception is left out.
* C110 (Model/RsInfo): `EventLogInfo` of the backend as folds, with its maps of followers filled in any order of iteration.
  The maps are shown to be the counts of an independent list of neighbours (Spec/RsInfo), and equal to the local ones (C09, C11).
* C111 (Model/RsInfo): the graph of `DiscoverDirectlyFollowsGraph`; the edges are looked up by identifiers, and the identifiers of the
  nodes are shown to be distinct, so that edges and pairs of classes correspond. Counts of identifiers do not overflow.
* C112 (Model/RsAlpha): the sets of the alpha algorithm. Proofs/AlphaCore shows on pairs of finite sets that after `t` rounds of the
  maximization all pairs of size `t + 2` and all smaller maximal pairs are there, and nothing else that is small; so the loop
  ends with exactly the maximal pairs. The hash by which sets are compared must tell apart the sequences of names that occur.
* C113 (Model/RsNet): `create_petri_net` as folds over a net with a counter for identifiers. An invariant (`Fresh`) keeps identifiers
  apart, so that an arc reaches exactly the transition that is meant; the arcs are counted in the statement.
* C114 (Model/RsNet): Alpha+ with the transitions of loops, which find their place by name. The cases of a panic are exact; a
  place made for a loop has as many arcs in as out for every transition, so that it never gets a token. The full property is
  refuted by a log (`C114_dead_loop`).
* C115 (Model/RsNet): the added step of Alpha++. As the sets of places are different maximal pairs, none contains another one, so
  that the step finds nothing. Whether `Lazy::get` has a value depends on the process, which is a parameter of the model.
* C116, C117 (Model/RsReplay): the replay of a trace with its stack of states, with fuel for the loop, and the annotations. Firing
  sequences are specified on their own (Spec/RsReplay); every state on the stack is reached by one, and if a trace can be replayed some
  state on the stack leads to its end. The replay ends if silent steps are well-founded. Counts are compared with the firing sequences
  of the runs. Frequencies are rational numbers instead of f64.
* C118 (Model/RsMarking): `ensure_initial_marking` with what it changes, and that after the alpha algorithm no trace of the log can be
  replayed any more.
* C119, C120 (Model/RsHeuristic): the relations of the heuristic miner, with rational numbers instead of f64, compared with counts in
  the log (Spec/RsHeuristic); the groups of parallel followers are the maximal cliques, for hashes that tell apart sets of names.
  Merging in rounds is followed in Proofs/GroupCore.
* C121 (Model/RsHeuristic): the net of the heuristic miner. The loop over the classes is described by a list of steps (Proofs/RsHNet,
  RsHPlan), from which the number of arcs between each place and each transition is counted (Proofs/RsHShape, RsHLoops). Classes named
  like a silent transition are excluded, as transitions are looked up by their names.
* C122: the full property (the net replays its log) is refuted. Where there are no loops of length two, a class never comes more often
  than a class it depends on in any firing sequence; a log with a join is then unfit for its own net for every order of iteration.
  For loops of length two a log is given for which the replay panics, for one order of iteration.
* C123, C124 (Model/RsMutations): filters of the backend that remove elements of a vector in a loop over its indices from the last to
  the first; such loops are shown to replace each element on its own (`backLoop_replace`). Regular expressions are parameters.
* C125 (Model/RsMutations): the groups of traces are followed as a partition (`GroupedBy`) through the rounds of refinement, which
  every order of iteration permutes; sorting by the first index makes the result unique (Proofs/RsVariants).
* C126, C127, C128 (Model/RsMutations): artificial events, extraction of classes, logs made of names, underlying events as trees.
  Times are numbers; matches are counted in characters instead of bytes.
* C129 (Model/RsTandem): the search for tandem arrays of the backend as a fold over the windows of a trace with the set of hashes seen.
  The polynomial hash is modelled on 64 bits with and without overflow checks; the `DefaultHasher` it uses for one element is a parameter,
  and so is the hash of names. Proved by a general lemma on loops that skip keys seen before, and by comparing sorted lists of windows.
* C130 - C132 (Model/RsActivities): repeat sets, the activity graph and the extraction of instances of the backend. Nodes are numbers
  into a heap (a function from numbers to nodes), since the code shares them by `Rc<RefCell<..>>`; iteration of hash maps is a parameter that
  permutes; the hash of a word is a parameter, as in C129. The search below an activity (`narrow_activity`) has fuel, and a weight of the graph
  bounds what it needs. The graph is characterised by an invariant over its two loops; the scan is compared with the greedy segmentation of
  C30, whose uniqueness gives the comparison with the local library.
* C133 - C135 (Model/RsInstances): what the backend makes of activity instances. `process_activities_in_trace` is modelled by the list of
  the calls it makes (`pieces`); a lemma over this list (`pieces_mapM`) turns each of its uses into a specification by gaps and blocks, which
  does not mention the calls. Events with underlying events are the nested events of C128. The instances are supposed to be ordered, disjoint
  and inside the traces, which C133_after_extraction and C134_added show for the instances the backend makes. The hash map of logs is a
  dictionary in order of insertion; the theorems speak only of its look-ups.
* C136, C137 (Model/RsLoop): the loop over whole discoveries and the discovery for several levels. The loop is recursion on a number of
  rounds, and C136_ends shows that one more than the events of the log is enough. The search for patterns is a parameter (`Discovery.patterns`),
  so that the statements hold for tandem arrays (C129) and for repeats (C139). The pipeline run
  inside the loop is a function on logs; that it may change other values of the context is left out. The nodes of a graph are a list and
  those of a further level are moved behind them.
* C138, C139 (Model/RsSuffix): the suffix tree of the backend and the search for repeats with it, for each trace by itself. Building is
  modelled with its loops (`go`, `split`, `get_link`) and fuel; the proof keeps an invariant (`Trie` in Proofs/RsSuffix: each node stands for a
  word, all suffixes that begin before the active one are there, and links cut the first letter), which also shows that the fuel is enough.
  The specification (`SuffixTreeOf`) reads the ways to the nodes off the list of nodes and mentions no state of the construction. The search
  walks the tree with counts of letters before the occurrences; hash maps are dictionaries in order of insertion and the set of repeats is a
  list, sorted as in the code. Not modelled: `find_patterns` of the tree and overflow of `usize`.
* C140 (Model/RsPnml): the documents that Petri nets are written to, as the events given to the writer. What `quick_xml` makes of them
  (escaping, indentation) and the file are external. The specification has documents as trees and a reader (`readPlaces`,
  `readTransitions`, `readArcs`) that does not look at the order of attributes. The names of places, transitions and arcs are compared as
  strings; the sorts are stable in the code and an insertion sort in the model, which is stable too.
* C141 (Model/RsService): the service of the backend as a step from its contexts and a request to its contexts and the messages of a
  stream. What single parts do, how values are converted and when the client stops taking messages are parameters. Parts are assumed to
  send no final results (`LawfulParts`; only the service makes them). Which values requests get is stated for pipelines without nested
  ones and parts that send nothing by themselves (`Quiet`). The identifier of a run is a parameter, assumed fresh where that matters.
  Threads, locks and the size of the channel are left out; `C141_nothing_left` and its negative counterparts join it with the python
  client of C47 and C48.
* C142 and C143 (Model/RsXes): the reader of XES files of the backend as a fold over the tokens of `quick_xml`, with the nested loop that
  reads the next token as a state, and the writer as a list of tokens. A document is a tree (Spec/RsXes); `items` lists what counts of it.
  `quick_xml` itself (tokens, well-formed attributes that occur once, escaping), `chrono`, `uuid` and the texts of numbers are parameters
  (`Codec`) with the laws `Escapes` and `Parses`. The reader goes on for ever at the end of a file inside of a trace, because its loops
  `continue` on `Eof`; this is the outcome `forever`. Hash maps are association lists; the writer sorts them by key.
* C144 and C145 (Model/RsEntropy): the entropies of the backend and the values that `EventsHolder` keeps for a trace, as functions that
  return the log after the call; the order of the sets and maps is the parameter `Iter`. `InStep` (Spec/RsEntropy) says that kept values
  match the events; `Asked` are the histories that keep it. The counts are compared with the tables of Spec/Entropy, the values with the
  python library (C16, C17). `f64` is idealised as for C16; a difference below zero of `usize` is a panic in every build (see the model).
* C146 and C147 (Model/RsFuzzy): `discover_graph_fuzzy` with the metrics provider and the graph it works on. The data of nodes and edges
  are always there (`Some`), so they are plain values. Numbers are rationals instead of `f64`; the quotient of zeros in the relative
  significance (a NaN, for which every comparison is false) is `none`; the difference of two times in milliseconds is the parameter
  `millis`. The caches of the provider are left out, as they only keep values of functions. The end of the loop over the merges of clusters
  is a theorem (each merge makes one cluster less). Spec/RsFuzzy says which edges there are by counts of names in the log (`Useful`), which
  nodes are in clusters (`InCluster`), how two graphs are related by a grouping (`Grouping`, `Summed`), and what clusters are at
  the end (`Joined`, `Settled`, `BestPartner`). `to_default_graph`, which only turns the
  weights into texts, is not modelled.
* C148 and C149 (Model/RsDistance): the distances of edits and of angles between rows of a data set. Entries are of any type with
  equality for the first and real numbers for the second; that the quotient is not a number is `none`. Spec/RsDistance has edits of
  lists (`Edits`). The distances `L1Dist` and `L2Dist` are those of linfa (external).
* C150, C151 and C152 (Model/RsTables): the data sets of traces and of activities with their scaling. Values are rationals instead of `f64`;
  the regular expression of the class extractor is the parameter `find` (external), and one that does not compile, which panics, is left
  out. Spec/RsTables says what a table of counts and one of words is.
* C153 to C156 (Model/RsClusters): the clusters of traces and of activities and the colours. `Dbscan`, `KMeans` and the silhouette score
  (linfa, external) are parameters; the only assumption on them is one label per row. The random colours are a list that is drawn from
  (`none` if it is too short; the code would draw for ever if all colours were used). Spec/RsClusters says how instances are renamed
  (`Renamed`) and joined (`Coalesced`).
* C157, C158 and C159 (Model/RsBxes): the conversion of logs to and from what the crate `bxes` writes and reads, and the lifecycles. The
  crate itself, that is the bytes of the files, is external; that it reads what it wrote is not claimed here. Dates are numbers of
  nanoseconds of any size; for which of them `timestamp_nanos` of chrono has a number, and `==` of floats, are parameters (`Ext`).
  Spec/RsBxes says what can be written and read (`Writable`, `Readable`), what a file stands for (`LogRead`) and what comes back (`LogBack`).
* C160 to C164 (Model/RsNfc): the last steps of Alpha++ NFC: the two rules of reduction, the closure of the third relation, the pairs, the
  triples, the choice of places and the net. The relations are parameters: the provider of them (alpha_plus_nfc_provider.rs), which looks
  at nets found before and keeps answers in a cache, is modelled for C166 and C167. The hash of texts
  and of sequences of names is a parameter; the hash of a triple sees the bytes of its names without separators. Proofs/RsMaximize shows
  once for all that `maximize` finds exactly the maximal valid unions. Spec/RsNfc says what follows from other relations (`Implied`), what
  a maximal triple is and from which sets places come (`PlaceSource`).
* C165 (Model/RsNfcSets): the extended sets of Alpha++ NFC (extended_alpha_set.rs) and the loops that try, join and check them. The
  relations are parameters; what the sets imply (first or second relation) is one relation. The hashes of the sets and of the texts are
  parameters. Spec/RsNfcSets says what an extension of a set is and when it is maximal.
* C166 (Model/RsNfcArrows): `right_double_arrow_relation` of the provider of Alpha++ NFC with its cache and the added causal relations.
  The relations of the provider of Alpha+ (C113) and the names counted in the log are parameters. The scan keeps the names after the last
  event of the first class instead of its index. Spec/RsNfcArrows says when classes are distant (`Distant`).
* C167 (Model/RsNfcRules): `w1_relation`, `w21_relation`, `w22_relation` and `w3_relation` of the same provider with their caches. A method
  takes a state and gives an answer and a state, or panics; `||`, `&&` and loops that return early ask no more than the code does, as
  every question fills a cache. Of a net only the places around transitions and the names around places are seen (`NetView`); that every
  place of an arc is in the net is assumed. The proof shows that no question changes the answer to another one. Spec/RsNfcRules says when
  there is a dependency of each kind (`Implicit`).
* C168 (Model/RsIntervals): the tree of intervals of the library of the backend, utils/interval_tree, over any linear order. The loop that
  builds it works on a queue with fuel; the invariant (`build_spec`) says which node stands for which entry of the queue, so that every node
  stands for a list of intervals (`Repr`), which is what the search needs. `binary_search` is a parameter with the contract rust documents
  (`BinarySearch` in Spec/RsIntervals); orders of hash sets are parameters as elsewhere.
* C169 (Model/RsNfcStages): lines 41-136 of alpha_plus_plus_nfc.rs, the searches for the three kinds of dependencies on one provider with
  its caches. Nets are parameters, the later ones functions of the relations added so far; the questions that the search for extended sets
  asks in between are any list. The proof keeps that each cache holds nothing or the truth of its search (`Good`).
* C170 (Proofs/RsEnds): each round of `maximize` removes the sets that were merged and adds only larger unions over the same names, so the
  multiset of what is missing to the largest set falls in the Dershowitz–Manna order, for every hash, also one with collisions. Hence
  the searches of Alpha, Alpha+ and Alpha++ NFC end, and with them Alpha for every log and Alpha+ for those without its panics.
* C171 (Model/RsNfcNets): lines 19-22 and 38-136 of alpha_plus_plus_nfc.rs with the nets of lines 38, 56 and 127 made from the log by the
  code of alpha.rs, instead of the parameter of C169. The triples of lines 24-36 and the extended sets of 69-121 do not change these nets;
  the questions of the latter stay a parameter. Which of several sets with the same hash survive is not said.
* C172 (Model/RsNfcWhole): `discover_petri_net_alpha_plus_plus_nfc` as a whole, from the parts of C160 to C171. It is a composition, with the
  extended sets after the third search; the answers about distant classes for them are a parameter. That no `unwrap` of the last loop
  panics follows from the names of all sets being classes of the log.
* C173, C174 (Model/RsSharp): `discover_petri_net_alpha_sharp`, which prints what it finds, with its relations. The pairs and the first tuples
  are those of a specification in terms of the log (`Advanced`, `Redundant`). `maximize` is modelled once more because it
  copies the tuples that were not merged and `clone` of a tuple changes it. For the merged tuples an invariant of all rounds is proved;
  that the merging ends is proved only if no two classes go together. The text of the tuples and the order in which they are printed are left out.
* C175 (Model/RsLogIter): the iterators over a log and over a trace as states with an index; a loop is a fuelled recursion that is shown to
  end. That a trace is changed while it is iterated over is left out.

What is not modelled: what matplotlib, ipycanvas and `graphviz` make of the rectangles, texts and statements handed to them; plotly; pandas; the gRPC transport and what the
parts of the rust backend compute that are not named under C80 and C110 and later; pm4py; the XML text layer; the algorithms of the python suffix tree library (only
their contract `LawfulTrees`).

## 5. Disagreements between the code and the expected behaviour

Each is a theorem about the model. The name is given in parentheses.

| property | what the code does |
|---|---|
| C03 | events with equal payload can have different hashes' joins, and unequal payloads can collide, so that equality by hash is wrong in both refutations (`C03_*`) |
| C05 | round trip through XES changes `False` to `True`, raises for log properties, loses or changes globals that are not strings, classifiers, missing defaults and other value types (`C05_*`) |
| C14 | names `'aB'` and `'BC'` have the same hash, so that different traces fall into one group |
| C16 | events named like the fake start or end break the sum of probabilities |
| C17 | position entropy of an ignored event differs when it is asked for |
| C19 | `nan` for logs with at most one non-empty trace |
| C21 | a budget of 0 removals means unlimited removals |
| C22 | a log whose classes are all untouchable raises `ValueError` |
| C23 | when no candidate exists the loop spins until the budget is used up |
| C51 | a single non-empty trace with two classes gives no progress, the till-end variant does not terminate |
| C52 | an untouchable event that occurs raises `ValueError`, and so does a log with traces but without events |
| C27 | event sets with the same hash are taken for one set, e.g. of the names `aB` and `BC` (`C27_collision_loses_set`) |
| C25 | a tandem array is lost because a block is looked at only where it occurs first (`abcabab`) |
| C26 | `aa` is reported as primitive; `ababc` is rejected |
| C40 | the final segment is never emitted |
| C37 | underlying events are visited breadth first, not in the order of the trace |
| C53 | without hierarchy not even the own occurrence of a repeat set is promoted |
| C55 | class names that contain `::` collide |
| C41 | a nested pipeline resets the used colours; a `Pipeline` is rejected as a part of a pipeline |
| C43 | in-place parts inside `WithInputCopy` and `ParallelPipeline` change the caller's log |
| C44 | `draw_placements_of_events` marks a triple as used, so that `OverflowError` comes one colour early |
| C45 | duplicates after a reset; `#000000` is not reserved for undefined activities |
| C46 | the loop stops although instances were found when all are single events; the narrowing option is not passed on |
| C47 | a pipeline with `PrintEventlogInfoBeforeAfter` raises `TypeError` before anything is sent |
| C48 | a stream without messages raises `AttributeError` |
| C49 | the `'backend'` entry is deleted from the caller's dictionary, the next run goes to `localhost:8080` |
| C50 | copies drop attributes of traces and global values |
| C56 | an event object that occurs twice is mutated twice |
| C58 | the list of activities of a copied context is the same object, discovery on the copy extends it in the original (`C58_copy_changes_original`) |
| C59 | a gap is filled with an activity of an older level when both levels know the class (`C59_older_level_chosen`) |
| C60 | a second node with the name of a visited one is skipped together with its children, whose names can be lost (`C60_name_lost`) |
| C65 | created instances keep positions relative to their gap, so that gaps stay unfilled (`C65_gaps_are_not_filled`) |
| C66 | an unset marking cannot be told from an empty one, the branch for `None` is dead (`C66_unset_marking`) |
| C67 | tokens, and the final marking of an initially marked place, are not drawn; a place and a transition may share a node (`C67_not_visible`, `C67_shared_identifier`) |
| C69 | the children of a second node with the same name are lost; names with a colon get edges at other nodes (`C69_children_lost`, `C69_colon_breaks_edges`) |
| C70 | the start positions in the message are ignored, rectangles are drawn side by side; in a narrow diagram the legend is outside of the canvas (`C70_positions_ignored`, `C70_legend_cut_off`) |
| C71 | names that agree in their first fifty characters are one entry of the legend; the last label of the horizontal axis is at `(m + 1) * ws - 1` and not at `m * ws` (`C71_legend_merges`, `C71_colors`) |
| C72 | after a reset two names can have one colour; black, although marked as used, can be given to a name (`C72_same_color`, `C72_black_taken`) |
| C73 | activities with the same events share a colour; a gap at the end of a trace is not in the legend (`C73_same_events_and_last_gap`) |
| C74 | drawing with different colours empties the marks of the shared provider (`C74_marks_lost`) |
| C75 | overlapping patterns are drawn side by side, beyond the end of the trace (`C75_overlap`) |
| C76 | the maximal array length of `DiscoverActivitiesUntilNoMore2` is never sent (`C76_max_length_not_sent`) |
| C79 | every `EventLogInfo` in an initial context raises `TypeError`, its conversion returns another message type (`C79_context_fails`) |
| C80 | tandem kinds fail in `DiscoverActivitiesUntilNoMore2` and `DiscoverActivitiesForSeveralLevels2`, the number of underlying events is not sent back (so that 0 is printed), and some parameters have no effect (`C80_refused`, `C80_no_effect`) |
| C81 | entropy filters, `RemoveEventFromLogByName(s)` and `PreprocessEventsNames` drop all values but the log, so that later parts that need them fail (`C81_forgets`); `ClearActivities` without a log fails after it has replaced the activities (`C81_clear_early`) |
| C82-C84 | classes with equal hashes are taken for one: in `aB x BC` a repeat is reported although no class occurs twice (`C82_collision`) |
| C85 | an event class called `cluster_labels` is overwritten by the labels and not seen by the projection (`C85_hidden_column`); when a projection other than PCA fails, an empty figure stays open (`C85_failures`) |
| C86 | histograms of a single log raise `TypeError`, `draw_traces_histogram` always raises `AttributeError` (`C86_failures`) |
| C87 | conversion to pm4py loses all attributes of the traces and of the log (`C87_to_pm4py`, `C87_round_trips`) |
| C89 | parts after a filter change the log of the caller: artificial events appear in its traces (`C89_artificial_events_in_the_callers_log`), its events are renamed (`C89_renamed_events_in_the_callers_log`) |
| C91 | trace attributes and global values do not take part in the equality of logs; an empty log equals a log with one empty trace (`C91_content_equality_refuted`) |
| C92 | export to a file name without a directory raises `FileNotFoundError` (`C92_bare_name`); the temporary source is never removed (`C92_sources_stay`); an unknown format raises after the directories were made (`C92_unknown_format`) |
| C93 | saving a log under a file name without a directory raises `FileNotFoundError` (`C93_bare_name`) |
| C94 | the file named after path and level is the DOT source, the picture has `.png` appended (`C94_not_a_picture`); without a path every level overwrites the same file (`C94_displayed`) |
| C95 | line feeds in labels let different graphs have the same text (`C95_same_refuted`) |
| C96 | diagrams of traces cannot be saved under a bare name, all other figures not in a new directory (`C96_kinds_disagree`) |
| C97 | a loop whose block occurs earlier without being repeated is not found, and no event of it is covered (`C97_loop_missed`) |
| C99 | names with line feeds make the printed graph and the file of names ambiguous (`C99_graph_ambiguous`, `C99_names_ambiguous`) |
| C100 | after the default search in the merged trace the context has positions of the merged trace beside the log; the diagram of patterns shows only one row, with pieces at wrong places (`C100_merged_one_list`, `C100_merged_first_row_only`, `C100_merged_wrong_place`) |
| C102 | with the default labels activities whose names have equal hashes are drawn as one node and children are lost (`C102_hashes_collide`); labels of names collide for line feeds and break edges for single colons (`C102_line_feeds_collide`, `C102_colon_breaks_edges`) |
| C103 | class names with parentheses make the text of a class tree ambiguous (`C103_class_text_ambiguous`) |
| C105 | `DrawPlacementOfEvents` and `DrawSingleActivityPlacement` ignore `width_scale` (`C105_width_ignored`, `C105_width_lost`); `DrawActivitiesGraphByEventClassLevels` ignores `use_hashes_as_name` (`C105_hashes_ignored`, `C105_hashes_lost`); `EventsPlacement` raises TypeError for a function as path, after drawing (`C105_fails`) |
| C106 | Indirect removal till the end never ends for a log with two event classes none of which occurs in two traces (`C106_indirect_never_ends`); for a log of empty traces it plots `-1e10` as a difference (`C106_indirect_empty_traces`), where direct removal raises `ValueError` (`C106_direct_fails`) |
| C108 | If a class keeps its name at the next level, `build_graph` returns at the second node of that name and what is below it is not drawn, so all events can be missing (`C108_events_lost`); if an event has the name of a class of other events, the picture depends on the order of a set of strings (`C108_order_matters`). |
| C109 | `DiscoverActivitiesFromTandemArrays`, `DiscoverActivitiesInstancesFromRepeats` and the part that repeats the discovery ignore `should_narrow_activity` (`C109_narrow_ignored`, `C109_until_narrow_ignored`, `C109_narrow_lost`); the repetition also ignores `min_events_in_trace` (`C109_min_events_ignored`); `AddAllPatterns` ignores its class extractor (`C109_classes_lost`). The names given to activities decide which of several activities of the same size an instance belongs to (`C109_names_decide`). |
| C112 | alpha sets with equal hashes are taken for one and a place is lost (`C112_collision`) |
| C114 | Alpha+ panics if a trace has fewer than two events, or if a class that comes directly after itself begins or ends a trace (`C114_panics_iff`); the transition of such a class may get an empty place of its own and never fire (`C114_dead_loop`) |
| C115 | Alpha++ adds nothing to the net of Alpha+; it panics if no place of the process was ever made from a set (`C115_alpha_plus_plus`) |
| C116 | The replay does not end for nets in which a silent transition gives back the tokens it takes, also for traces that cannot be replayed (`C116_endless`) |
| C118 | `EnsureInitialMarking` panics for an empty trace, and after the alpha algorithm it makes every trace of the log impossible to replay; it does not set the final marking (`C118_ensure_marking_partial`, `C118_alpha_unfit`) |
| C121 | The heuristic miner panics exactly if a trace has fewer than two events (`C121_panics_iff`) |
| C124 | FilterTracesByEventsCount2 keeps traces with at least the given number of events, the local FilterTracesByCount only traces with more (`C124_local_needs_one_more`, `C124_agree_iff`) |
| C125 | FilterLogByVariants2 keeps the order of the log, the local filter by variants sorts by the first occurrence of the length; names with equal hashes are one variant (`C125_collision`) |
| C122 | In nets of the heuristic miner a class waits for all classes it depends on, also if they exclude each other (`C122_waits_for_all_partial`), so that a log with a join cannot be replayed on its own net (`C122_join_unfit`); for loops of length two the miner makes double arcs, for which the replay panics (`C122_two_loops_panic`) |
| C129 | the backend misses the same arrays as the local search; a collision of hashes of words loses further reports (`C129_collision`), and with overflow checks a hash can panic (`C129_hash_can_overflow`) |
| C130 | sets of classes with equal hashes are taken for one repeat set (`C130_collision_loses_set`); the backend lists repeat sets by position, the local library in the order found (`C130_order_differs`) |
| C131 | a node may be a child of a node and of one above that (`C131_redundant_edges`); a set inside another one need not be below it in the graph (`C131_inside_but_not_below`), so that narrowing does not find it |
| C132 | the kinds `NarrowUp` and `NarrowDown` do the same (`C132_kinds_coincide`); extraction reorders the activities of its caller (`C132_sorts_activities`) |
| C133 | traces after the last list of instances are lost, and an instance beyond the end of its trace panics (`C133_traces_lost`); neither happens after extraction |
| C135 | a class with a closing bracket gives two different activities one name, and so one log (`C135_name_clash`); an event with underlying events that is inserted between instances gets a log of its own (example in Props/RsActivityLogs) |
| C136 | a pipeline that is to be run only at the last extraction need not be run at all (`C136_last_run_missing`): the loop ends without it when no instances are left |
| C137 | with patterns from unattached parts and no instances yet the run ends with the error of a missing log instead of taking the whole log (`C137_missing_log`); from all of the log an activity can be found again in each level (example in Props/RsLevels) |
| C139 | the search for maximal repeats misses maximal repeats: in "zawxbwxawybwyz" the word "w" is not reported, as the sets of letters before "wx" and before "wy" are the same (`C139_maximal_missed`); what it reports is `PairRepeat`, and every occurrence of every repeat lies inside of a reported one (`C139_maximal_covers`) |
| C139 | the search for near super maximal repeats does not take the start of a trace as a witness: in "abczabdzabd" the word "ab" is not reported (`C139_near_super_maximal_missed`), although the local library reports it under the contract of its trees (C84) |
| C140 | with names as identifiers the document can have an identifier twice, also for nets of the alpha algorithm: a class named "StartPlace" and the start place (`C140_name_clash`), and then the direction of an arc is lost to a reader (`C140_name_ambiguous`); markings are never written, so a reader cannot tell where the net starts (`C140_lost`) |
| C141 | an unknown part or an unknown key of an initial value panics in the service, so the client sees an empty stream and raises `AttributeError` (`C141_unreadable_silent`, `C141_unreadable_raises`); after a panic of a part the client returns as if the run had ended well (`C141_panic_unnoticed`); if a callback raises or the client goes away, the context of the run stays in the service for ever (`C141_left_behind`, `C141_kept_for_nobody`) |
| C142 | a file cut off inside of a trace, an event or a global is read for ever (`C142_cut_trace`, `C142_cut_event`, `C142_cut_global`); an error of the document outside of those ends the log silently (`C142_cut_log`); an ampersand that starts no entity panics (`C142_bad_entity`); attributes of traces are lost (`C142_trace_attributes_lost`), an attribute of an event with attributes of its own is lost and those become attributes of the event (`C142_nested_attributes`, `C142_nested_properties`), self-closing traces and events are lost (`C142_self_closing_lost`), defaults of a global without a scope become properties of the log (`C142_global_without_scope`), a second global of a scope and defaults after a trace do not hold (`C142_late_defaults`) |
| C143 | empty traces, timestamps, numbers beyond 64 bits and events whose date cannot be read back are lost (`C143_written_read`, `C143_values`); texts of extensions, classifiers and scopes are escaped again every time (`C143_extension_grows`); defaults that stood after a trace hold for it after the log was written (`C143_late_defaults`) |
| C144 | the values that a trace of the backend keeps for the position entropies are not renewed when its events change: later questions panic or miss events (`C144_stale`, `C144_not_renewed`); one event of a log without traces panics, and the fast function counts ignored names (`C144_edges`) |
| C146 | with a negative ratio threshold the edges of a fuzzy graph depend on the order of hash maps (`C146_negative_ratio`); with an edge cutoff above one all edges are removed (`C146_large_cutoff`) |
| C147 | the nodes "connected" with a node in the clustering are its successors and all nodes with an edge to themselves, as a variable is shadowed in `all_connected_nodes`: an activity without neighbours gets into a cluster (`C147_unrelated`), a rare one with incoming edges only stays outside (`C147_only_incoming`); the clusters depend on the order of hash maps (`C147_order`); a cluster of one activity loses its edge to itself (`C147_loop_lost`) |
| C148 | the first row of the matrix of the edit distance has an additional zero, so that the first entry of the first row is deleted for free: the distance of [1, 2, 0] and [2, 0, 0] is one instead of two (`C148_too_small`), and it is not symmetric (`C148_not_symmetric`); it is zero for equal rows only and less than the edit distance by at most one (`C148_zero`, `C148_bounds`) |
| C152 | activities that come from clusters have no repeat set, so that clustering them again by event classes is an error (`C152_no_repeat_set`), and by sub-traces they have zeros only |
| C154 | touching instances of one activity are joined even if nothing is in a cluster (`C154_joins_without_clusters`) |
| C155 | with clusters by density labels and colours are shifted by one against the names of the new activities: activity `CLUSTER_0` has the colour of noise (`C155_shifted`) |
| C156 | the grid search never tries one cluster or as many as activities, and is an error with fewer than three activities (`C156_few`) and if one score fails (`C156_no_score`) |
| C157 | attributes with the default value of the log are left out of a BXES file but the reader does not fill defaults in, so they are lost unless the crate `bxes` fills them in (`C157_same_iff`, `C157_defaults_lost`); the reader of XES files does fill them in |
| C158 | a BXES variant that stands for several traces is read as one trace, and its metadata is lost (`C158_counts_lost`); artifacts, drivers and types of software events make the reader panic (`C158_panics`) |
| C160 | the second rule of reduction of Alpha++ NFC never removes a relation, as the closure leaves out the pairs that are related directly (`C160_rule2_removes_nothing`, `C160_implied_stays`) |
| C161 | Alpha++ NFC never ends if the third relation has a cycle from which not all related classes can be reached, as the search does not mark visited classes (`C161_ends_iff`, `C161_endless`) |
| C162 | of two pairs with the same names one after the other, such as {a},{b,c} and {a,b},{c}, one is lost for every hash (`C162_one_per_sequence`, `C162_lost`); the second rule would have prevented that |
| C163 | of two triples whose names make the same text one is lost for every hash (`C163_one_per_text`, `C163_lost`); only each class with itself is asked to be unrelated, not the classes of a set with each other |
| C164 | nets of Alpha++ NFC have no start and end places and no markings (`C164_net`), so the replay of a log with traces gives nothing (C116); a place is lost if another one lists the same names (`C164_lost`) |
| C165 | of two extensions of a set whose new names make the same text, first side before second side, one is lost for every hash (`C165_one_per_text`, `C165_lost`); new classes of a side need not be apart from each other |
| C166 | whether classes are distant is remembered from the first question, although the causal relations it depends on grow during the discovery (`C166_again`, `C166_stale`) |
| C167 | dependencies of the second and third kind build on answers about distant classes that may be out of date (`C167_first`, `C167_far`); the caches do not see that the net changes (`C167_again`); the third kind panics if a class is no transition of the net (`C167_answers`) |
| C168 | the tree of intervals panics for no intervals and never ends if an interval ends before it begins (`C168_panic_iff`, `C168_endless_iff`); whether an interval that is a point at the right bound is among the envelopes depends on the position the binary search chooses (`C168_envelopes_point_at_the_end`); a point as bounds has no envelopes (`C168_envelopes_empty`) |
| C169 | in the searches for the second and third kind each answer about distant classes may be one from an earlier search, before causes were added (`C169_found`) |
| C171 | the first net of Alpha++ NFC has two transitions of the same name for a class that comes directly after itself, of which the relations look at either (example beside `C171_first`) |
| C171 | Alpha++ NFC panics on a trace with fewer than two events and if a class that comes directly after itself begins or ends a trace (`C171_searches_panic`) |
| C172 | Alpha++ NFC never ends if the dependencies of the third kind have a cycle from which not all of their classes can be reached (`C172_net` with `ClosureEnds`), as for a log of two traces of four classes (`C172_endless`); its net has no initial and no final marking (`C172_net`) |
| C174 | alpha sharp prints invalid tuples: `clone` takes the first set of each pair for the second as well, so that tuples that are not merged in a round in which others are lose their classes (`C174_invalid`) |

## 6. Axioms

`#print axioms` was run for every theorem named in MANIFEST.json. Every theorem depends on a subset of `propext`,
`Classical.choice` and `Quot.sound`; no other axiom occurs.
