import Verif.Model.RsMarking

/-! Model of the heuristic miner of the backend, /repo/src/rust/ficus_backend/src/features/discovery/heuristic: heuristic_miner.rs and
relations_provider.rs, and utils/sets/one_set.rs. Floating point numbers are rational here. -/

namespace Ficus.Rs

/-- The orders of iteration at another place of the code. -/
def Iter.sub (it : Iter) (tag : String) : Iter := ⟨fun p n _ l => it.order (p ++ " of " ++ tag) n l, fun p n _ l => it.perm (p ++ " of " ++ tag) n l⟩

/-- The thresholds, relations_provider.rs:9-14. -/
structure Thresholds where
  dependency : ℚ
  observations : Nat
  relative : ℚ
  parallel : ℚ
  loops : ℚ
  deriving DecidableEq, Repr

/-- `calculate_dependency_measure`, relations_provider.rs:126-135. -/
def Info.dependencyMeasure (info : Info) (a b : String) : ℚ :=
  if a ≠ b then ((info.followsCount a b : ℚ) - info.followsCount b a) / (info.followsCount a b + info.followsCount b a + 1)
  else (info.followsCount b a : ℚ) / (info.followsCount b a + 1)

/-- The first loop of `initialize_dependency_relations` for one class, relations_provider.rs:54-70. -/
def qualifiedFor (it : Iter) (th : Thresholds) (info : Info) (a : String) : List (String × ℚ) :=
  (info.allClasses (it.sub a) 0).filterMap (fun b =>
    if info.followsCount a b < th.observations then none
    else if info.dependencyMeasure a b ≤ th.dependency then none
    else some (b, info.dependencyMeasure a b))

/-- `max_by` of the measures, relations_provider.rs:75. -/
def bestMeasure : List (String × ℚ) → Option ℚ
  | [] => none
  | v :: vs => some (match bestMeasure vs with
    | none => v.2
    | some m => if v.2 ≤ m then m else v.2)

/-- What the second loop leaves of them, relations_provider.rs:73-84. -/
def dependenciesOf (it : Iter) (th : Thresholds) (info : Info) (a : String) : List (String × ℚ) :=
  match bestMeasure (qualifiedFor it th info a) with
  | none => []
  | some best => (qualifiedFor it th info a).filter (fun v => !decide (v.2 < best * (1 - th.relative)))

/-- `dependency_relation`, relations_provider.rs:86-102. The map is empty for a name that is no class. -/
def dependsOn (it : Iter) (th : Thresholds) (info : Info) (a b : String) : Bool :=
  info.classes.contains a && (dependenciesOf it th info a).any (fun v => decide (v.1 = b))

/-- `and_or_xor_relation`, relations_provider.rs:104-117: whether it is `And`. -/
def isParallel (th : Thresholds) (info : Info) (a b c : String) : Bool :=
  decide (th.parallel < ((info.followsCount b c : ℚ) + info.followsCount c b) / (info.followsCount a b + info.followsCount a c + 1))

/-- `loop_length_two_relation`, relations_provider.rs:119-124; the triangles are listed as often as they occur. -/
def isTwoLoop (th : Thresholds) (tri : List (String × String)) (a b : String) : Bool :=
  decide (th.loops < ((tri.count (a, b) : ℚ) + tri.count (b, a)) / (tri.count (a, b) + tri.count (b, a) + 1))

/-- The followers of a class, heuristic_miner.rs:48-53. -/
def followersOf (it : Iter) (th : Thresholds) (info : Info) (a : String) : List String :=
  (info.allClasses (it.sub a) 1).filter (dependsOn it th info a)

/-- `==` on groups, one_set.rs:61-79: the hashes of the sorted names are compared. -/
def sameGroup (hash : List String → Nat) (x y : List String) : Bool := decide (hash x = hash y)

/-- The pairs of parallel followers, heuristic_miner.rs:59-69. -/
def parallelPairs (hash : List String → Nat) (th : Thresholds) (info : Info) (a : String) : List String → List (List String) → List (List String)
  | [], acc => acc
  | x :: rest, acc => parallelPairs hash th info a rest
    ((rest.filter (fun y => decide (x ≠ y) && isParallel th info a x y)).foldl (fun s y => insertBy (sameGroup hash) s (sortedSet [x, y])) acc)

/-- The merger of groups, heuristic_miner.rs:71-82. -/
def mergeGroups (th : Thresholds) (info : Info) (a : String) (x y : List String) : Option (List String) :=
  if (sortedSet (x ++ y)).all (fun b => (sortedSet (x ++ y)).all (fun c => decide (b = c) || isParallel th info a b c)) then
    some (sortedSet (x ++ y))
  else none

/-- The groups of parallel followers of a class, heuristic_miner.rs:59-82. -/
def parallelGroups (it : Iter) (hash : List String → Nat) (th : Thresholds) (info : Info) (fuel : Nat) (a : String) : Option (List (List String)) :=
  maximize (it.sub a) (sameGroup hash) (mergeGroups th info a) fuel 0 (parallelPairs hash th info a (followersOf it th info a) [])

/-- A member of a group, heuristic_miner.rs:93-99. -/
def addMember (ids : Dict String Nat) (t : Nat) (s : Building) (el : String) : Option Building :=
  let p := addPlace s ("pre_" ++ el) none
  (connectOut p.1 t p.2).bind (fun s2 => (ids.get? el).bind (connectIn s2 p.2))

/-- A group, heuristic_miner.rs:88-100. -/
def addGroup (ids : Dict String Nat) (a : String) (post : Nat) (s : Building) (group : List String) : Option Building :=
  let r := addTransition s ("silent_start_" ++ a) true
  (connectIn r.1 post r.2).bind (fun s2 => group.foldlM (addMember ids r.2) s2)

/-- The places after a class, heuristic_miner.rs:84-106. -/
def addFollowers (it : Iter) (ids : Dict String Nat) (a : String) (followers : List String) (groups : List (List String)) (s : Building) :
    Option Building :=
  let p := addPlace s ("post_" ++ a) none
  (((ids.get? a).bind (fun t => connectOut p.1 t p.2)).bind (fun s2 =>
    (it.order ("parallel_groups of " ++ a) 0 groups).foldlM (addGroup ids a p.2) s2)).bind (fun s3 =>
      (followers.filter (fun f => !groups.any (fun g => decide (f ∈ g)))).foldlM (fun s f => (ids.get? f).bind (connectIn s p.2)) s3)

/-- The body of the loop over the classes, heuristic_miner.rs:47-107. -/
def addHeuristicClass (it : Iter) (hash : List String → Nat) (th : Thresholds) (info : Info) (fuel : Nat) (ids : Dict String Nat) (s : Building)
    (a : String) : Option Building :=
  if (followersOf it th info a).isEmpty then some s
  else (parallelGroups it hash th info fuel a).bind (fun groups => addFollowers it ids a (followersOf it th info a) groups s)

/-- `construct_heuristic_petri_net`, heuristic_miner.rs:40-108. -/
def heuristicNet (it : Iter) (hash : List String → Nat) (th : Thresholds) (info : Info) (fuel next : Nat) : Option Building :=
  let r := addClassTransitions { net := emptyNet, next := next } (info.allClasses it 2)
  (info.allClasses it 3).foldlM (addHeuristicClass it hash th info fuel r.2) r.1

/-- The two transitions of each loop of length two, heuristic_miner.rs:113-117. The net is not changed by the loop, so that all searches
see the transitions in the same order. -/
def twoLoops (it : Iter) (th : Thresholds) (tri : List (String × String)) (info : Info) (net : Net) : Option (List (Trans × Trans)) :=
  ((info.allClasses it 4).flatMap (fun a => ((info.allClasses (it.sub a) 5).filter (fun b => decide (a ≠ b) && isTwoLoop th tri a b)).map
    (fun b => (a, b)))).mapM (fun p => (findTransition it 0 net p.1).bind (fun a => (findTransition it 0 net p.2).map (fun b => (a, b))))

/-- `add_length_two_loops`, heuristic_miner.rs:110-137. -/
def addTwoLoops (it : Iter) (th : Thresholds) (tri : List (String × String)) (info : Info) (s : Building) : Option Building :=
  (twoLoops it th tri info s.net).bind (fun ps =>
    ((ps.flatMap (fun p => p.2.outgoing.map (fun arc => (arc.place, p.1.id)))).foldlM (fun s c => connectIn s c.1 c.2) s).bind (fun s2 =>
      (ps.flatMap (fun p => p.2.incoming.map (fun arc => (p.1.id, arc.place)))).foldlM (fun s c => connectOut s c.1 c.2) s2))

variable {E : Type} [HasName E]

/-- `discover_petri_net_heuristic`, heuristic_miner.rs:12-38; the part is in pipelines/discovery_parts.rs:96-118. -/
def discoverHeuristic (it : Iter) (hash : List String → Nat) (th : Thresholds) (fuel next : Nat) (log : List (List E)) : Option Building :=
  let info := createInfo it log
  (triangles (log.map (fun t => t.map name))).bind (fun tri =>
    (heuristicNet it hash th info fuel next).bind (addTwoLoops it th tri info))

end Ficus.Rs
