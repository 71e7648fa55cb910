import Verif.Model.RsNet

/-! Model of the last steps of Alpha++ NFC, /repo/src/rust/ficus_backend/src/features/discovery/alpha/alpha_plus_plus_nfc:
alpha_plus_plus_nfc.rs (called nfc.rs here), alpha_plus_plus_nfc_triple.rs (triple.rs) and w3_pair.rs. The relations of the provider,
providers/alpha_plus_nfc_provider.rs, are parameters. -/

namespace Ficus.Rs.Nfc

/-! ### The closure of the third relation and the second rule -/

/-- The `graph`, nfc.rs:238-245. The pairs come in the order of iteration of the set of relations. -/
def graph (rels : List (String × String)) : Dict String (List String) :=
  rels.foldl (fun g r =>
    match g.get? r.1 with
    | some children => g.set r.1 (insertSet children r.2)
    | none => g.set r.1 [r.2]) []

/-- `all_classes`, nfc.rs:239-249. -/
def allClasses (rels : List (String × String)) : List String :=
  rels.foldl (fun s r => insertSet (insertSet s r.1) r.2) []

/-- `children` of a class, in the order of iteration of the set: the sets do not change during the search, so that the order is the
same at every visit. -/
def kids (it : Iter) (g : Dict String (List String)) (c : String) : List String :=
  match g.get? c with
  | some children => it.order ("children of " ++ c) 0 children
  | none => []

/-- The loop over the queue, nfc.rs:262-277, which runs at most as often as the fuel allows; `none` if that is not enough. A class
without children is a class without the map entry. -/
def search (next : String → List String) (second : String) : Nat → List String → Option Bool
  | _, [] => some false
  | 0, _ :: _ => none
  | fuel + 1, current :: q =>
    if second ∈ next current then some true else search next second fuel (q ++ next current)

/-- `closure.get_mut(..)`, nfc.rs:280-284. -/
def addToClosure (closure : Dict String (List String)) (first second : String) : Dict String (List String) :=
  match closure.get? first with
  | some children => closure.set first (insertSet children second)
  | none => closure.set first [second]

/-- The body of the loops over two classes, nfc.rs:255-285; direct children are passed over (255-259). -/
def closureStep (next : String → List String) (fuel : Nat) (closure : Dict String (List String)) (p : String × String) :
    Option (Dict String (List String)) :=
  if p.2 ∈ next p.1 then some closure
  else (search next p.2 fuel [p.1]).map (fun found => if found then addToClosure closure p.1 p.2 else closure)

/-- `construct_w3_transitive_closure_cache`, nfc.rs:237-290. -/
def closureCache (it : Iter) (fuel : Nat) (rels : List (String × String)) : Option (Dict String (List String)) :=
  let g := graph (it.order "w3_relations" 0 rels)
  let classes := it.order "all_classes" 0 (allClasses (it.order "w3_relations" 0 rels))
  (classes.flatMap (fun a => classes.map (fun b => (a, b)))).foldlM (closureStep (kids it g) fuel) []

/-- `eliminate_w3_relations_by_rule_2`, nfc.rs:292-305. -/
def rule2 (rels : List (String × String)) (closure : Dict String (List String)) : List (String × String) :=
  let toRemove := rels.filter (fun r => (closure.get? r.1).any (fun children => decide (r.2 ∈ children)))
  rels.filter (fun r => decide (r ∉ toRemove))

/-- `eliminate_by_reduction_rule_1`, nfc.rs:213-235, with the relations of the provider as they are answered at this point. -/
def rule1 (w2 concave : String → String → Bool) (classes : List String) (rels : List (String × String)) : List (String × String) :=
  let toRemove := rels.filter (fun r => classes.any (fun b => (w2 r.1 b && concave b r.2) || (w2 b r.2 && concave r.1 b)))
  rels.filter (fun r => decide (r ∉ toRemove))

/-! ### The pairs of the third relation -/

/-- `valid`, w3_pair.rs:33-63. -/
def pairValid (w3 : List (String × String)) (unrelated : String → String → Bool) (x : ASet) : Bool :=
  x.left.all (fun a => x.right.all (fun b => decide ((a, b) ∈ w3))) &&
  x.left.all (fun a => x.left.all (fun b => unrelated a b)) &&
  x.right.all (fun a => x.right.all (fun b => unrelated a b))

/-- `merge`, w3_pair.rs:65-69, and the closure that is given to `maximize`, nfc.rs:150-157. -/
def pairMerge (w3 : List (String × String)) (unrelated : String → String → Bool) (x y : ASet) : Option ASet :=
  if pairValid w3 unrelated (x.extend y) then some (x.extend y) else none

/-- The pairs of one class each, nfc.rs:141-148 with `try_new`, w3_pair.rs:20-31. -/
def pairCandidates (it : Iter) (classes : List String) (w3 : List (String × String)) (unrelated : String → String → Bool) :
    List ASet :=
  (it.order "all_event_classes" 0 classes).flatMap (fun a => (it.order "all_event_classes" 1 classes).filterMap (fun b =>
    if pairValid w3 unrelated (ASet.new a b) then some (ASet.new a b) else none))

/-- `z_w`, nfc.rs:141-157. -/
def zw (it : Iter) (hash : List String → Nat) (fuel : Nat) (classes : List String) (w3 : List (String × String))
    (unrelated : String → String → Bool) : Option (List ASet) :=
  maximize it (ASet.same hash) (pairMerge w3 unrelated) fuel 0
    ((pairCandidates it classes w3 unrelated).foldl (insertBy (ASet.same hash)) [])

/-! ### The triples -/

/-- `AlphaPlusPlusNfcTriple`, triple.rs:10-14. -/
structure Triple where
  a : List String
  b : List String
  c : List String
  deriving DecidableEq, Repr

/-- The relations that are asked for triples, triple.rs:59-73. -/
structure TripleRel where
  direct : String → String → Bool
  triangle : String → String → Bool
  parallel : String → String → Bool
  unrelated : String → String → Bool

/-- The body of the loops of `valid`, triple.rs:59-73. -/
def TripleRel.ok (rel : TripleRel) (a b c : String) : Bool :=
  (rel.direct a c && !rel.triangle c a) && (rel.direct c b && !rel.triangle c b) && !rel.parallel a b &&
    (rel.unrelated a a && rel.unrelated b b)

/-- `valid`, triple.rs:55-79. -/
def Triple.valid (rel : TripleRel) (t : Triple) : Bool := t.a.all (fun a => t.b.all (fun b => t.c.all (fun c => rel.ok a b c)))

/-- `new`, triple.rs:17-23. -/
def Triple.new (a b c : String) : Triple := ⟨[a], [b], [c]⟩

/-- The triple that `try_merge` makes, triple.rs:39-47. -/
def Triple.join (x y : Triple) : Triple := ⟨sortedSet (x.a ++ y.a), sortedSet (x.b ++ y.b), sortedSet (x.c ++ y.c)⟩

/-- `try_merge`, triple.rs:38-53. -/
def tripleMerge (rel : TripleRel) (x y : Triple) : Option Triple := if (x.join y).valid rel then some (x.join y) else none

/-- What is hashed, triple.rs:101-113: the bytes of the names one after the other, without anything between them. -/
def Triple.text (t : Triple) : String := (t.a ++ t.b ++ t.c).foldl (· ++ ·) ""

/-- `==`, triple.rs:115-119: the hashes are compared. `hash` is the hash of a text (`DefaultHasher`, external). -/
def Triple.same (hash : String → Nat) (x y : Triple) : Bool := decide (hash x.text = hash y.text)

/-- The triples of one class each, nfc.rs:26-34 with `try_new`, triple.rs:25-36. -/
def tripleCandidates (it : Iter) (rel : TripleRel) (classes loops : List String) : List Triple :=
  (it.order "all_event_classes" 3 classes).flatMap (fun a => (it.order "all_event_classes" 4 classes).flatMap (fun b =>
    (it.order "one_length_loop_transitions" 1 loops).filterMap (fun c =>
      if (Triple.new a b c).valid rel then some (Triple.new a b c) else none)))

/-- `l_w`, nfc.rs:24-36. -/
def lw (it : Iter) (hash : String → Nat) (fuel : Nat) (rel : TripleRel) (classes loops : List String) : Option (List Triple) :=
  maximize it (Triple.same hash) (tripleMerge rel) fuel 0
    ((tripleCandidates it rel classes loops).foldl (insertBy (Triple.same hash)) [])

/-- `two_sets`, triple.rs:81-86. -/
def Triple.twoSets (t : Triple) : ASet := ⟨sortedSet (t.a ++ t.c), sortedSet (t.b ++ t.c)⟩

/-! ### The net -/

/-- `check_should_add_to_pw`, nfc.rs:160-168. -/
def shouldAdd (lw : List Triple) (x : ASet) : Bool := !lw.any (fun t => decide (t.a = x.left) && decide (t.b = x.right))

/-- `p_w`, nfc.rs:159-185: the sets of `z_w` and `y_w` (as `two_sets`) that are not those of a triple, and then the triples. -/
def pw (it : Iter) (hash : List String → Nat) (lw : List Triple) (zw yw : List ASet) : List ASet :=
  (((it.order "z_w" 0 zw).filter (shouldAdd lw)) ++ ((it.order "y_w" 0 yw).filter (shouldAdd lw)) ++
    (it.order "l_w" 0 lw).map Triple.twoSets).foldl (insertBy (ASet.same hash)) []

/-- The body of the loop over the places, nfc.rs:199-208; `none` is the panic of `unwrap` if a class has no transition. -/
def addNfcPlace (ids : Dict String Nat) (s : Building) (x : ASet) : Option Building :=
  let r := addPlace s x.text none
  (connectOutAll ids r.2 r.1 x.left).bind (fun s2 => connectInAll ids r.2 s2 x.right)

/-- The net, nfc.rs:187-211: `classes` are those of the log without `loops`. -/
def resultNet (it : Iter) (next : Nat) (classes loops : List String) (places : List ASet) : Option Building :=
  let r := addClassTransitions { net := emptyNet, next := next }
    (it.order "all_event_classes" 2 classes ++ it.order "one_length_loop_transitions" 0 loops)
  (it.order "p_w" 0 places).foldlM (addNfcPlace r.2) r.1

end Ficus.Rs.Nfc
