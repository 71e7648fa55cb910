import Verif.Model.RsNfcStages
import Verif.Model.RsNet

/-! Model of the nets that the discovery of Alpha++ NFC looks at on its way,
/repo/src/rust/ficus_backend/src/features/discovery/alpha/alpha_plus_plus_nfc/alpha_plus_plus_nfc.rs (called nfc.rs here), lines 38, 56 and
127, with alpha.rs and providers/alpha_plus_nfc_provider.rs (nfc_provider.rs). -/

namespace Ficus.Rs.Nfc

variable {E : Type} [HasName E]

/-- `AlphaPlusNfcRelationsProvider::new`, nfc_provider.rs:89-96, with alpha_plus_provider.rs:22-35, 71-77 and 85-87; `ignored` are the
classes that are left out of `info`, nfc.rs:20 and 40, and `triangles` is what `calculate_triangle_relations` finds.
`known` is `event_count`, event_log_info.rs:196-201. Simplified: all loops over the classes that the provider makes have the same order. -/
def providerOf (it : Iter) (log : List (List E)) (ignored : Option (List String)) (triangles : List (String × String)) : Provider where
  direct := (createInfo it log ignored).follows
  unrelated a b := !(createInfo it log ignored).follows a b && !(createInfo it log ignored).follows b a
  triangle a b := decide ((a, b) ∈ triangles)
  classes := (createInfo it log ignored).allClasses it 20
  known c := decide (((createInfo it log ignored).classes.get? c).getD 0 ≠ 0)
  log := log.map (fun t => t.map name)

/-- The relations that the algorithm of alpha.rs asks of the provider, nfc_provider.rs:38-61, after relations were added. -/
def Provider.relations (p : Provider) (extra : List (String × String)) : Relations := ⟨p.causal extra, p.unrelated⟩

/-- `discover_petri_net_alpha_plus` with `alpha_plus_plus` false, alpha.rs:26-39 and 137-142. -/
def plusNet (it : Iter) (hash : List String → Nat) (fuel next : Nat) (log : List (List E)) (ignored : Option (List String))
    (loops : List String) (rel : Relations) : Option Building :=
  (alphaSets it hash fuel (createInfo it log ignored) rel).bind (fun sets =>
    (createNet it next (createInfo it log ignored) sets).bind (addLoops it log loops))

/-- The first net, nfc.rs:19-22 and 38. -/
def firstNet (it : Iter) (hash : List String → Nat) (fuel next : Nat) (log : List (List E)) (loops : List String)
    (triangles : List (String × String)) : Option Building :=
  plusNet it hash fuel next log none loops ((providerOf it log none triangles).relations [])

/-- The nets of nfc.rs:40-41 with 56 or 127, after the relations `extra` were added. -/
def laterNet (it : Iter) (hash : List String → Nat) (fuel next : Nat) (log : List (List E)) (loops : List String)
    (triangles extra : List (String × String)) : Option Building :=
  plusNet it hash fuel next log (some loops) loops ((providerOf it log (some loops) triangles).relations extra)

/-- What the relations ask of a net, petri_net.rs:143-151 and 186-200. Simplified: the transitions before and after a place are in the
order of the transitions, not in that in which they were connected. -/
def viewOf (it : Iter) (net : Net) : NetView where
  find n := (findTransition it 0 net n).map (fun t => (t.incoming.map Arc.place, t.outgoing.map Arc.place))
  pre p := (net.transitions.filter (fun t => decide (p ∈ t.outgoing.map Arc.place))).map Trans.name
  post p := (net.transitions.filter (fun t => decide (p ∈ t.incoming.map Arc.place))).map Trans.name

/-- The view of a net of nfc.rs:56 or 127; an empty one stands for a net that cannot be made. -/
def viewOr (it : Iter) : Option Building → NetView
  | some s => viewOf it s.net
  | none => ⟨fun _ => none, fun _ => [], fun _ => []⟩

/-- nfc.rs:19-22 and 38-136, without the triples of lines 24-36: the searches with the nets they look at; `none` if one of the nets cannot be
made. Simplified: the nets of lines 56 and 127 are taken from `laterNet` for the relations that were found, and that
they can be made is checked after the searches; until then an empty view stands for a net that cannot be made. -/
def searches (it : Iter) (hash : List String → Nat) (fuel next : Nat) (log : List (List E))
    (questions : List (String × String) → List (String × String) → List (String × String)) : Option Stages :=
  (oneLoops (log.map (fun t => t.map name))).bind (fun loops =>
    (triangles (log.map (fun t => t.map name))).bind (fun tri =>
      (firstNet it hash fuel next log loops tri).bind (fun first =>
        (stages it (providerOf it log (some loops) tri) (viewOf it first.net)
          (fun l => viewOr it (laterNet it hash fuel next log loops tri l)) questions .new).bind (fun r =>
          (laterNet it hash fuel next log loops tri r.1.w1).bind (fun _ =>
            (laterNet it hash fuel next log loops tri (r.1.w1 ++ r.1.kept)).map (fun _ => r.1))))))

end Ficus.Rs.Nfc
