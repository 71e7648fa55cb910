import Verif.Model.Colors

/-! Specification vocabulary for histories of colour requests. -/

namespace Ficus.Spec

/-- The components are bytes, as produced by `random.randint(0, 255)` (util.py:117-118). -/
def IsByteColor (c : Rgb) : Prop := c.1 < 256 ∧ c.2.1 < 256 ∧ c.2.2 < 256

/-- A request. -/
inductive ColorOp
  | named (name : String)
  | unnamed
  | reset
  | markBlack
  deriving DecidableEq

/-- One request: the colour given, if any, and the new state. -/
def colorStep (p : Palette) : ColorOp → Draw (Option String × Palette)
  | .named n => match p.colorOf n with
    | .done (c, q) => .done (some c, q)
    | .overflow => .overflow
    | .running => .running
  | .unnamed => match p.uncached with
    | .done (c, q) => .done (some c, q)
    | .overflow => .overflow
    | .running => .running
  | .reset => .done (none, p.reset)
  | .markBlack => .done (none, p.markBlack)

/-- A history of requests that all return. -/
inductive ColorRun : Palette → List ColorOp → Palette → Prop
  | nil (p : Palette) : ColorRun p [] p
  | cons {p q r : Palette} {op : ColorOp} {ops : List ColorOp} (c : Option String) (h : colorStep p op = .done (c, q))
      (t : ColorRun q ops r) : ColorRun p (op :: ops) r

/-- The colours newly taken from the provider during a history: what uncached requests give and what requests for names
without a cached colour give. -/
inductive Issued : Palette → List ColorOp → List String → Palette → Prop
  | nil (p : Palette) : Issued p [] [] p
  | unnamed {p q r : Palette} {ops : List ColorOp} {cs : List String} {c : String}
      (h : p.uncached = .done (c, q)) (t : Issued q ops cs r) : Issued p (.unnamed :: ops) (c :: cs) r
  | cachedName {p r : Palette} {n c : String} {ops : List ColorOp} {cs : List String}
      (h : p.cached.get? n = some c) (t : Issued p ops cs r) : Issued p (.named n :: ops) cs r
  | newName {p q r : Palette} {n c : String} {ops : List ColorOp} {cs : List String}
      (h0 : p.cached.get? n = none) (h : p.colorOf n = .done (c, q)) (t : Issued q ops cs r) :
      Issued p (.named n :: ops) (c :: cs) r
  | markBlack {p r : Palette} {ops : List ColorOp} {cs : List String}
      (t : Issued p.markBlack ops cs r) : Issued p (.markBlack :: ops) cs r

end Ficus.Spec
