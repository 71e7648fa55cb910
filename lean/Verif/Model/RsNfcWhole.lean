import Verif.Model.RsNfcNets
import Verif.Model.RsNfcSets

/-! Model of the discovery of Alpha++ NFC as a whole,
/repo/src/rust/ficus_backend/src/features/discovery/alpha/alpha_plus_plus_nfc/alpha_plus_plus_nfc.rs (called nfc.rs here). -/

namespace Ficus.Rs.Nfc

variable {E : Type} [HasName E]

/-- The relations of the provider that triples ask for, with `parallel_relation`, providers/alpha_plus_nfc_provider.rs:49-61
and 72-74. -/
def Provider.tripleRel (p : Provider) : TripleRel where
  direct := p.direct
  triangle := p.triangle
  parallel a b := p.direct a b && p.direct b a && !(p.triangle a b || p.triangle b a)
  unrelated := p.unrelated

/-- The relations that extended sets ask for, extended_alpha_set.rs:99-150; which classes are distant is a parameter. -/
def Provider.esetRel (p : Provider) (r : Stages) (distant : String → String → Bool) : ESetRel where
  implied a b := decide ((a, b) ∈ r.w1) || decide ((a, b) ∈ r.kept)
  unrelated := p.unrelated
  double := distant

/-- The sets of the places of `alpha_net`, nfc.rs:70-73, for the relations with those of the first kind, with alpha.rs:22-24. -/
def alphaBases (it : Iter) (hash : List String → Nat) (fuel next : Nat) (log : List (List E)) (loops : List String)
    (tri extra : List (String × String)) : Option (List ASet) :=
  (alphaSets it hash fuel (createInfo it log (some loops)) ((providerOf it log (some loops) tri).relations extra)).bind (fun sets =>
    (createNet it next (createInfo it log (some loops)) sets).map (fun s => s.net.places.filterMap Place.set))

/-- `discover_petri_net_alpha_plus_plus_nfc`, nfc.rs:18-211; `none` is a panic or too little fuel. Simplified: the extended sets and
their net (69-121) come after the third search, which does not ask for them; `questions` are the questions about distant classes that they
ask, `distant` the answers. The numbers of every net begin with `next`. -/
def discoverNfc (it : Iter) (hash : List String → Nat) (hashText : String → Nat) (hashBoth : List String → String → Nat) (fuel next : Nat)
    (log : List (List E)) (questions : List (String × String) → List (String × String) → List (String × String))
    (distant : Stages → String → String → Bool) : Option Building :=
  (oneLoops (log.map (fun t => t.map name))).bind (fun loops =>
    (triangles (log.map (fun t => t.map name))).bind (fun tri =>
      let all := providerOf it log none tri
      let p := providerOf it log (some loops) tri
      (lw it hashText fuel all.tripleRel all.classes loops).bind (fun l =>
        (searches it hash fuel next log questions).bind (fun r =>
          (alphaBases it hash fuel next log loops tri r.w1).bind (fun bases =>
            (yw it hash hashBoth fuel (p.esetRel r (distant r)) p.classes bases).bind (fun y =>
              (closureCache it fuel r.w3).bind (fun closure =>
                (zw it hash fuel p.classes (rule2 r.w3 closure) p.unrelated).bind (fun z =>
                  resultNet it next p.classes loops (pw it hash l z (y.map ESet.twoSets))))))))))

end Ficus.Rs.Nfc
