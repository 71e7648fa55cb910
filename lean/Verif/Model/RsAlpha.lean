import Verif.Model.RsInfo

/-! Model of the sets of the alpha algorithm, /repo/src/rust/ficus_backend/src/features/discovery/alpha: alpha.rs,
alpha_set.rs, utils.rs, providers/alpha_provider.rs and providers/alpha_plus_provider.rs, and utils/sets/two_sets.rs. -/

namespace Ficus.Rs

/-! ### Sets -/

/-- `BTreeSet::insert`: a set of strings is a sorted list. The order of rust on strings, by bytes of UTF-8, is the order by
code points. -/
def sortedInsert (x : String) : List String → List String
  | [] => [x]
  | y :: ys => if x = y then y :: ys else if x < y then x :: y :: ys else y :: sortedInsert x ys

/-- `collect` into a `BTreeSet`. -/
def sortedSet (l : List String) : List String := l.foldl (fun s x => sortedInsert x s) []

/-- `AlphaSet`, alpha_set.rs:7-9, with `TwoSets`, two_sets.rs:6-12. -/
structure ASet where
  left : List String
  right : List String
  deriving DecidableEq, Repr

/-- `AlphaSet::new`, alpha_set.rs:18-22, and `new_one_element`, two_sets.rs:29-34. -/
def ASet.new (left right : String) : ASet := ⟨[left], [right]⟩

/-- `is_left_subset`, alpha_set.rs:24-26 and two_sets.rs:63-65. -/
def ASet.leftSubset (x y : ASet) : Bool := x.left.all (fun c => decide (c ∈ y.left))

/-- `is_right_subset`, alpha_set.rs:28-30 and two_sets.rs:67-69. -/
def ASet.rightSubset (x y : ASet) : Bool := x.right.all (fun c => decide (c ∈ y.right))

/-- `is_full_subset`, alpha_set.rs:32-34. -/
def ASet.fullSubset (x y : ASet) : Bool := x.leftSubset y && x.rightSubset y

/-- `extend`, alpha_set.rs:88-92, and `merge`, two_sets.rs:40-45. -/
def ASet.extend (x y : ASet) : ASet := ⟨sortedSet (x.left ++ y.left), sortedSet (x.right ++ y.right)⟩

/-- The relations asked from an `AlphaRelationsProvider`, alpha_provider.rs:3-10. -/
structure Relations where
  causal : String → String → Bool
  unrelated : String → String → Bool

/-- `can_extend`, alpha_set.rs:60-86. -/
def ASet.canExtend (rel : Relations) (x y : ASet) : Bool :=
  (x.left ++ y.left).all (fun a => (x.right ++ y.right).all (fun b => rel.causal a b)) &&
  (x.left ++ y.left).all (fun a => (x.left ++ y.left).all (fun b => rel.unrelated a b)) &&
  (x.right ++ y.right).all (fun a => (x.right ++ y.right).all (fun b => rel.unrelated a b))

/-- What is hashed of a set, two_sets.rs:72-85: the strings of the left and then those of the right side. -/
def ASet.key (x : ASet) : List String := x.left ++ x.right

/-- `==` on sets, alpha_set.rs:101-105 and utils/hash_utils.rs:25-33: the hashes are compared. `hash` is the hash of a sequence
of strings (`DefaultHasher`, external). -/
def ASet.same (hash : List String → Nat) (x y : ASet) : Bool := decide (hash x.key = hash y.key)

/-! ### Maximization -/

/-- `HashSet::insert` with the given comparison: an equal element stays. -/
def insertBy {α : Type} (same : α → α → Bool) (s : List α) (x : α) : List α := if s.any (same x) then s else s ++ [x]

/-- The merges of one round, utils.rs:16-27: the merged elements with the two indices. -/
def roundMerges {α : Type} (merger : α → α → Option α) (vec : List α) : List (α × Nat × Nat) :=
  vec.zipIdx.flatMap (fun x => vec.zipIdx.filterMap (fun y =>
    if x.2 ≠ y.2 then (merger x.1 y.1).map (fun m => (m, x.2, y.2)) else none))

/-- One round of `maximize`, utils.rs:11-39, with the elements in the order of iteration; `none` if nothing changes. -/
def maximizeRound {α : Type} (same : α → α → Bool) (merger : α → α → Option α) (vec : List α) : Option (List α) :=
  let merges := roundMerges merger vec
  if merges.isEmpty then none
  else
    let mergedIndices := merges.flatMap (fun m => [m.2.1, m.2.2])
    let new := merges.foldl (fun s m => insertBy same s m.1) []
    some (vec.zipIdx.foldl (fun s (x : α × Nat) => if x.2 ∈ mergedIndices then s else insertBy same s x.1) new)

/-- `maximize`, utils.rs:4-43. The loop runs at most as often as the fuel allows; `none` if that is not enough. -/
def maximize {α : Type} (it : Iter) (same : α → α → Bool) (merger : α → α → Option α) : Nat → Nat → List α → Option (List α)
  | 0, _, _ => none
  | fuel + 1, round, current =>
    match maximizeRound same merger (it.order "current" round current) with
    | none => some current
    | some new => maximize it same merger fuel (round + 1) new

/-- The merger of `maximize_sets`, alpha.rs:165-172. -/
def mergeSets (rel : Relations) (x y : ASet) : Option ASet :=
  if (x.leftSubset y || x.rightSubset y) && x.canExtend rel y then some (x.extend y) else none

/-- `create_initial_sets`, alpha.rs:144-162. -/
def initialSets (it : Iter) (hash : List String → Nat) (info : Info) (rel : Relations) : List ASet :=
  ((((info.allClasses it 0).filter (fun c => (info.followed.get? c).isSome && rel.unrelated c c)).flatMap (fun c =>
    ((info.allClasses it 1).filter (fun d => rel.causal c d && rel.unrelated d d)).map (ASet.new c))).filter
      (fun s => decide (0 < s.left.length) && decide (0 < s.right.length))).foldl (insertBy (ASet.same hash)) []

/-- `filter_out_non_maximal_sets`, alpha.rs:175-184. -/
def onlyMaximal (it : Iter) (hash : List String → Nat) (sets : List ASet) : List ASet :=
  (it.order "current_sets" 0 sets).filter (fun p => !sets.any (fun c => !ASet.same hash p c && p.fullSubset c))

/-- The sets from which places are made, alpha.rs:137-142. -/
def alphaSets (it : Iter) (hash : List String → Nat) (fuel : Nat) (info : Info) (rel : Relations) : Option (List ASet) :=
  (maximize it (ASet.same hash) (mergeSets rel) fuel 0 (initialSets it hash info rel)).map (onlyMaximal it hash)

/-! ### Relations -/

/-- `DefaultAlphaRelationsProvider`, alpha_provider.rs:22-42. -/
def alphaRelations (info : Info) : Relations where
  causal a b := info.follows a b && !info.follows b a
  unrelated a b := !info.follows a b && !info.follows b a

/-- The loop of `calculate_triangle_relations` over one trace, alpha_plus_provider.rs:43-56. `0..(len - 2)` is computed with
unsigned numbers: for less than two events it panics at the subtraction or at the first index, which is `none`. The counts of the
pairs are left out. -/
def trianglesOf (ns : List String) : Option (List (String × String)) :=
  if ns.length < 2 then none
  else some ((List.range (ns.length - 2)).filterMap (fun i =>
    match ns[i]?, ns[i + 1]?, ns[i + 2]? with
    | some a, some b, some c => if a = c then some (a, b) else none
    | _, _, _ => none))

/-- `calculate_triangle_relations`, alpha_plus_provider.rs:37-60. -/
def triangles (log : List (List String)) : Option (List (String × String)) := (log.mapM trianglesOf).map List.flatten

/-- The loop of `find_transitions_one_length_loop` over one trace, alpha.rs:127-131; `0..(len - 1)` panics for an empty trace. -/
def oneLoopsOf (ns : List String) : Option (List String) :=
  if ns.length < 1 then none
  else some ((List.range (ns.length - 1)).filterMap (fun i =>
    match ns[i]?, ns[i + 1]? with
    | some a, some b => if a = b then some a else none
    | _, _ => none))

/-- `find_transitions_one_length_loop`, alpha.rs:122-135. -/
def oneLoops (log : List (List String)) : Option (List String) :=
  (log.mapM oneLoopsOf).map (fun l => l.flatten.foldl insertSet [])

/-- `AlphaPlusRelationsProviderImpl`, alpha_plus_provider.rs:62-96, with the pairs of `calculate_triangle_relations`. -/
def alphaPlusRelations (info : Info) (tri : List (String × String)) : Relations where
  causal a b := info.follows a b && (!info.follows b a || (decide ((a, b) ∈ tri) && decide ((b, a) ∈ tri)))
  unrelated a b := !info.follows a b && !info.follows b a

end Ficus.Rs
