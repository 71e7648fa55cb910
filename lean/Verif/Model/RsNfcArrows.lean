import Verif.Model.RsInfo

/-! Model of the relation between distant classes of Alpha++ NFC,
/repo/src/rust/ficus_backend/src/features/discovery/alpha/providers/alpha_plus_nfc_provider.rs (called nfc_provider.rs here) with
relations_cache.rs. The relations of the provider of Alpha+ are parameters. -/

namespace Ficus.Rs.Nfc

/-- What does not change in `AlphaPlusNfcRelationsProvider`, nfc_provider.rs:24-32: the relations of the provider of Alpha+, the classes,
which names are counted in the information about the log, and the names of the events of the log. -/
structure Provider where
  direct : String → String → Bool
  unrelated : String → String → Bool
  triangle : String → String → Bool
  classes : List String
  known : String → Bool
  log : List (List String)

/-- `RelationsCache`, relations_cache.rs:3-5. -/
abbrev RelCache := Dict String (Dict String Bool)

/-- `try_get`, relations_cache.rs:12-20. -/
def RelCache.tryGet (cache : RelCache) (first second : String) : Option Bool :=
  match cache.get? first with
  | some map => map.get? second
  | none => none

/-- `put`, relations_cache.rs:22-33: a value that is there stays. -/
def RelCache.put (cache : RelCache) (first second : String) (value : Bool) : RelCache :=
  let cache := if cache.contains first then cache else cache.set first []
  match cache.get? first with
  | some map => if map.contains second then cache else cache.set first (map.set second value)
  | none => cache

/-- What changes, nfc_provider.rs:28 and 31: the additional causal relations and the cache of `right_double_arrow_relation`. -/
structure ProviderState where
  extra : List (String × String)
  cache : RelCache

/-- `new`, nfc_provider.rs:89-96. -/
def ProviderState.new : ProviderState := ⟨[], []⟩

/-- `causal_relation`, nfc_provider.rs:38-47. -/
def Provider.causal (p : Provider) (extra : List (String × String)) (a b : String) : Bool :=
  decide ((a, b) ∈ extra) || (p.direct a b && (!p.direct b a || p.triangle a b || p.triangle b a))

/-- `left_triangle_relation`, nfc_provider.rs:102-114. -/
def Provider.leftTriangle (p : Provider) (extra : List (String × String)) (a b : String) : Bool :=
  if !p.unrelated a b then false else p.classes.any (fun c => p.causal extra c a && p.causal extra c b)

/-- `right_triangle_relation`, nfc_provider.rs:116-128. -/
def Provider.rightTriangle (p : Provider) (extra : List (String × String)) (a b : String) : Bool :=
  if !p.unrelated a b then false else p.classes.any (fun c => p.causal extra a c && p.causal extra b c)

/-- The loop over the events between two classes, nfc_provider.rs:158-175. -/
def Provider.suitable (p : Provider) (extra : List (String × String)) (first : String) (between : List String) : Bool :=
  let actual := between.filter p.known
  actual.all (fun c => !(p.leftTriangle extra c first || p.rightTriangle extra c first)) && decide (0 < actual.length)

/-- The loop over the events of a trace, nfc_provider.rs:149-182. Instead of the index of the last event of the first class, the names
after it are kept. -/
def Provider.scan (p : Provider) (extra : List (String × String)) (first second : String) : Option (List String) → List String → Bool
  | _, [] => false
  | last, n :: ns =>
    if n = first then p.scan extra first second (some []) ns
    else if n = second then
      match last with
      | some between => if p.suitable extra first between then true else p.scan extra first second none ns
      | none => p.scan extra first second none ns
    else p.scan extra first second (last.map (· ++ [n])) ns

/-- `calculate_right_double_arrow_relation` without its cache, nfc_provider.rs:142-185. -/
def Provider.calculateDouble (p : Provider) (extra : List (String × String)) (first second : String) : Bool :=
  if p.direct first second then false else p.log.any (p.scan extra first second none)

/-- `right_double_arrow_relation`, nfc_provider.rs:130-140. -/
def Provider.double (p : Provider) (s : ProviderState) (first second : String) : Bool × ProviderState :=
  let value := match s.cache.tryGet first second with
    | some v => v
    | none => p.calculateDouble s.extra first second
  (value, { s with cache := s.cache.put first second value })

/-- What is asked of a provider: `right_double_arrow_relation` or `add_additional_causal_relation`, nfc_provider.rs:483-485. -/
inductive ProviderCall
  | double (first second : String)
  | add (first second : String)
  deriving DecidableEq

/-- The state after a call. -/
def Provider.step (p : Provider) (s : ProviderState) : ProviderCall → ProviderState
  | .double a b => (p.double s a b).2
  | .add a b => { s with extra := if (a, b) ∈ s.extra then s.extra else s.extra ++ [(a, b)] }

end Ficus.Rs.Nfc
