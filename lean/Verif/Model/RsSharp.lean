import Verif.Model.RsAlpha

/-! Model of the discovery of alpha sharp, /repo/src/rust/ficus_backend/src/features/discovery/alpha/alpha_sharp.rs (sharp.rs here) with
providers/alpha_sharp_provider.rs (sharp_provider.rs) and providers/alpha_plus_provider.rs. It only prints what it finds. -/

namespace Ficus.Rs.Sharp

variable {E : Type} [HasName E]

/-- What is asked of the provider of Alpha+, alpha_plus_provider.rs:62-91, and the classes, sharp_provider.rs:48 and 71. Simplified: all
loops over the classes have the same order. -/
structure SharpRel where
  direct : String → String → Bool
  romb : String → String → Bool
  classes : List String

/-- `AlphaSharpRelationsProvider::new`, sharp_provider.rs:91-96, with the information on the whole log, sharp.rs:215, and
alpha_plus_provider.rs:22-35, 71-73 and 85-91. -/
def relOf (it : Iter) (log : List (List E)) (tri : List (String × String)) : SharpRel where
  direct := (createInfo it log).follows
  romb a b := decide ((a, b) ∈ tri) && decide ((b, a) ∈ tri)
  classes := (createInfo it log).allClasses it 20

/-- `causal_relation`, alpha_plus_provider.rs:63-65. -/
def SharpRel.causal (p : SharpRel) (a b : String) : Bool := p.direct a b && (!p.direct b a || p.romb a b)

/-- `parallel_relation`, alpha_plus_provider.rs:67-69. -/
def SharpRel.parallel (p : SharpRel) (a b : String) : Bool := p.direct a b && p.direct b a && !p.romb a b

/-- `advanced_ordering_relation`, sharp_provider.rs:43-64. -/
def SharpRel.advanced (p : SharpRel) (a b : String) : Bool :=
  p.causal a b && p.classes.any (fun x => p.classes.any (fun y =>
    p.causal a x && p.causal y b && !p.direct y x && !p.parallel x b && !p.parallel a y))

/-- `redundant_advanced_ordering_relation`, sharp_provider.rs:70-87. -/
def SharpRel.redundant (p : SharpRel) (a b : String) : Bool :=
  p.classes.any (fun c => p.classes.any (fun d =>
    decide (c ≠ a) && decide (d ≠ b) && p.causal c d && p.advanced a d && p.advanced c b))

/-- A pair of sets of an `AlphaSharpSet`, sharp.rs:11. -/
abbrev Sets := List String × List String

/-- The order of pairs of sets: by the first and then by the second, each by its elements. -/
def before (x y : Sets) : Bool := decide (x.1 < y.1) || (decide (x.1 = y.1) && decide (x.2 < y.2))

/-- `BTreeSet::insert` for pairs of sets. -/
def setsInsert (x : Sets) : List Sets → List Sets
  | [] => [x]
  | y :: ys => if x = y then y :: ys else if before x y then x :: y :: ys else y :: setsInsert x ys

/-- `BTreeSet::from_iter` for pairs of sets. -/
def setsOf (l : List Sets) : List Sets := l.foldl (fun s x => setsInsert x s) []

/-- `AlphaSharpTuple`, sharp.rs:13-17, without the provider. -/
structure Tuple where
  pin : List Sets
  pout : List Sets
  deriving DecidableEq, Repr

/-- `any_parallel_items`, sharp.rs:100-112. -/
def anyParallel (p : SharpRel) (s t : List String) : Bool := s.any (fun a => t.any (fun b => p.parallel a b))

/-- The loops over the indices `i < j`, sharp.rs:79-86 and 88-95. -/
def allPairs (f : Sets → Sets → Bool) : List Sets → Bool
  | [] => true
  | x :: xs => xs.all (f x) && allPairs f xs

/-- `valid`, sharp.rs:58-98. -/
def Tuple.valid (p : SharpRel) (t : Tuple) : Bool :=
  t.pin.all (fun i => t.pout.all (fun o =>
    i.1.all (fun a => o.2.all (fun b => p.advanced a b)) && i.2.all (fun x => o.1.all (fun y => !p.parallel x y)))) &&
  allPairs (fun s u => anyParallel p s.1 u.1) t.pin && allPairs (fun s u => anyParallel p s.2 u.2) t.pout

/-- `try_create_new`, sharp.rs:28-43. -/
def tryNew (p : SharpRel) (i o : String × String) : Option Tuple :=
  let t : Tuple := ⟨[([i.1], [i.2])], [([o.1], [o.2])]⟩
  if t.valid p then some t else none

/-- `try_merge`, sharp.rs:45-56. -/
def tryMerge (p : SharpRel) (s t : Tuple) : Option Tuple :=
  let new : Tuple := ⟨setsOf (s.pin ++ t.pin), setsOf (s.pout ++ t.pout)⟩
  if new.valid p then some new else none

/-- What is hashed of a tuple, sharp.rs:115-132: all names in their order. -/
def Tuple.key (t : Tuple) : List String := (t.pin ++ t.pout).flatMap (fun s => s.1 ++ s.2)

/-- `==`, sharp.rs:134-138: the hashes are compared. -/
def Tuple.same (hash : List String → Nat) (s t : Tuple) : Bool := decide (hash s.key = hash t.key)

/-- `clone`, sharp.rs:194-212: the first set is taken for the second as well. -/
def Tuple.clone (t : Tuple) : Tuple := ⟨setsOf (t.pin.map (fun s => (s.1, s.1))), setsOf (t.pout.map (fun s => (s.1, s.1)))⟩

/-- One round of `maximize`, utils.rs:11-39, as `maximizeRound` but with the `clone` of line 35; `none` if nothing changes. -/
def sharpRound (same : Tuple → Tuple → Bool) (merger : Tuple → Tuple → Option Tuple) (vec : List Tuple) : Option (List Tuple) :=
  let merges := roundMerges merger vec
  if merges.isEmpty then none
  else
    let mergedIndices := merges.flatMap (fun m => [m.2.1, m.2.2])
    let new := merges.foldl (fun s m => insertBy same s m.1) []
    some (vec.zipIdx.foldl (fun s (x : Tuple × Nat) => if x.2 ∈ mergedIndices then s else insertBy same s x.1.clone) new)

/-- `maximize`, utils.rs:4-43, as `maximize` but with `sharpRound`; `none` if the fuel is not enough. -/
def sharpMaximize (it : Iter) (same : Tuple → Tuple → Bool) (merger : Tuple → Tuple → Option Tuple) :
    Nat → Nat → List Tuple → Option (List Tuple)
  | 0, _, _ => none
  | fuel + 1, round, current =>
    match sharpRound same merger (it.order "current" round current) with
    | none => some current
    | some new => sharpMaximize it same merger fuel (round + 1) new

/-- The loop over the pairs of classes, sharp.rs:220-230. -/
def advancedPairs (p : SharpRel) : List (String × String) :=
  p.classes.flatMap (fun a => p.classes.filterMap (fun b => if p.advanced a b && !p.redundant a b then some (a, b) else none))

/-- The loops that make the first tuples, sharp.rs:236-246. -/
def firstTuples (hash : List String → Nat) (p : SharpRel) (pairs : List (String × String)) : List Tuple :=
  (pairs.flatMap (fun ab => p.classes.flatMap (fun x => p.classes.filterMap (fun y => tryNew p (ab.1, x) (y, ab.2))))).foldl
    (insertBy (Tuple.same hash)) []

/-- What is printed before the tuples are merged, sharp.rs:232-234 and 248-250, with the relations. -/
structure Start where
  rel : SharpRel
  pairs : List (String × String)
  tuples : List Tuple

/-- `discover_petri_net_alpha_sharp` up to the merging, sharp.rs:214-250; `none` is a panic. -/
def sharpStart (it : Iter) (hash : List String → Nat) (log : List (List E)) : Option Start :=
  (oneLoops (log.map (fun t => t.map name))).bind (fun _ =>
    (triangles (log.map (fun t => t.map name))).map (fun tri =>
      let p := relOf it log tri
      let pairs := advancedPairs p
      ⟨p, pairs, firstTuples hash p (it.order "advanced_pairs" 0 pairs)⟩))

/-- `discover_petri_net_alpha_sharp`, sharp.rs:214-257: the tuples printed at the end; `none` is a panic or too little fuel. The order in
which they are printed is left out. -/
def discoverSharp (it : Iter) (hash : List String → Nat) (fuel : Nat) (log : List (List E)) : Option (List Tuple) :=
  (sharpStart it hash log).bind (fun s => sharpMaximize it (Tuple.same hash) (tryMerge s.rel) fuel 0 s.tuples)

end Ficus.Rs.Sharp
