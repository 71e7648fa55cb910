import Verif.Model.RsNfc

/-! Model of the extended sets of Alpha++ NFC, /repo/src/rust/ficus_backend/src/features/discovery/alpha/alpha_plus_plus_nfc:
extended_alpha_set.rs (called ext.rs here) and alpha_plus_plus_nfc.rs (nfc.rs). The relations of the provider are parameters; its caches
do not change an answer between two questions as long as no causal relation is added, which is the case here. -/

namespace Ficus.Rs.Nfc

/-- `ExtendedAlphaSet`, ext.rs:10-14. -/
structure ESet where
  base : ASet
  left : List String
  right : List String
  deriving DecidableEq, Repr

/-- The relations that are asked: `implied` is membership in `w1_relations` or in `w2_relations`, ext.rs:99-104. -/
structure ESetRel where
  implied : String → String → Bool
  unrelated : String → String → Bool
  double : String → String → Bool

/-- `valid`, ext.rs:99-150. -/
def ESet.valid (rel : ESetRel) (x : ESet) : Bool :=
  x.left.all (fun a => decide (a ∉ x.base.left)) &&
  x.right.all (fun b => decide (b ∉ x.base.right)) &&
  x.base.left.all (fun a => x.right.all (fun b => rel.implied a b)) &&
  (x.base.right ++ x.right).all (fun b => x.left.all (fun a => rel.implied a b)) &&
  x.base.left.all (fun c => x.left.all (fun a => rel.unrelated a c && !rel.double a c)) &&
  x.base.right.all (fun c => x.right.all (fun b => rel.unrelated c b && !rel.double c b))

/-- `merge`, ext.rs:160-166. -/
def ESet.join (x y : ESet) : ESet := ⟨x.base.extend y.base, sortedSet (x.left ++ y.left), sortedSet (x.right ++ y.right)⟩

/-- The bytes of the extensions one after the other, ext.rs:186-192, without anything between them. -/
def ESet.text (x : ESet) : String := (x.left ++ x.right).foldl (· ++ ·) ""

/-- `==`, ext.rs:196-200 and 183-194: the hashes are compared. `hash` is the hash of the names of the set and the text. -/
def ESet.same (hash : List String → String → Nat) (x y : ESet) : Bool := decide (hash x.base.key x.text = hash y.base.key y.text)

/-- The merger, nfc.rs:110-121. -/
def esetMerge (hash : List String → Nat) (rel : ESetRel) (x y : ESet) : Option ESet :=
  if !ASet.same hash x.base y.base then none
  else if (x.join y).valid rel then some (x.join y) else none

/-- `try_new`, `try_new_only_left` and `try_new_only_right`, ext.rs:49-97. -/
def ESet.tried (rel : ESetRel) (x : ESet) : Option ESet := if x.valid rel then some x else none

/-- The extensions of one set by one class on one or on both sides, nfc.rs:74-100. -/
def esetsOf (it : Iter) (rel : ESetRel) (classes : List String) (base : ASet) : List ESet :=
  (it.order "all_event_classes" 5 classes).flatMap (fun a => (it.order "all_event_classes" 6 classes).filterMap (fun b =>
    ESet.tried rel ⟨base, [a], [b]⟩)) ++
  (it.order "all_event_classes" 7 classes).flatMap (fun c =>
    (ESet.tried rel ⟨base, [c], []⟩).toList ++ (ESet.tried rel ⟨base, [], [c]⟩).toList)

/-- `x_w`, nfc.rs:69-108: `bases` are the sets of the places of `alpha_net`. -/
def esetCandidates (it : Iter) (rel : ESetRel) (classes : List String) (bases : List ASet) : List ESet :=
  (it.order "all_places" 0 bases).flatMap (esetsOf it rel classes) ++ (it.order "all_places" 1 bases).map (fun b => ⟨b, [], []⟩)

/-- `y_w`, nfc.rs:69-121. -/
def yw (it : Iter) (hashBase : List String → Nat) (hash : List String → String → Nat) (fuel : Nat) (rel : ESetRel) (classes : List String)
    (bases : List ASet) : Option (List ESet) :=
  maximize it (ESet.same hash) (esetMerge hashBase rel) fuel 0
    ((esetCandidates it rel classes bases).foldl (insertBy (ESet.same hash)) [])

/-- `two_sets`, ext.rs:168-176. -/
def ESet.twoSets (x : ESet) : ASet := ⟨sortedSet (x.base.left ++ x.left), sortedSet (x.base.right ++ x.right)⟩

end Ficus.Rs.Nfc
