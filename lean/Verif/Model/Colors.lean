import Verif.Model.Py

/-! Model of the colour providers, src/python/ficus/legacy/util.py:74-124, and of the caches of colours kept by the
drawing functions, analysis/event_log_analysis.py:196-218 and 300-318, analysis/patterns/patterns_graphs.py:88-99. -/

namespace Ficus

/-- A triple of colour components. -/
abbrev Rgb := Nat × Nat × Nat

/-- A hexadecimal digit as printed by `%X`. -/
def hexDigit (n : Nat) : Char := if n < 10 then Char.ofNat (48 + n) else Char.ofNat (55 + n)

/-- The hexadecimal digits of a number without leading zeros, as printed by `%X`. -/
def hexDigits (n : Nat) : List Char :=
  if n < 16 then [hexDigit n] else hexDigits (n / 16) ++ [hexDigit (n % 16)]
termination_by n
decreasing_by omega

/-- `%02X`: at least two digits. -/
def hex2 (n : Nat) : List Char :=
  if (hexDigits n).length < 2 then List.replicate (2 - (hexDigits n).length) '0' ++ hexDigits n else hexDigits n

/-- `to_hex`, util.py:123-124: `'#%02X%02X%02X' % color`. -/
def toHex (c : Rgb) : String := String.ofList ('#' :: (hex2 c.1 ++ hex2 c.2.1 ++ hex2 c.2.2))

/-- An element of the set `used_colors`, util.py:84: a colour text, or the triple that `draw_placements_of_events` adds
(event_log_analysis.py:307). In python a text and a tuple are never equal. -/
inductive UsedItem
  | text (s : String)
  | triple (c : Rgb)
  deriving DecidableEq

/-- What a call of the provider does: it returns, raises OverflowError, or is still in its loop when the given random
draws are used up. -/
inductive Draw (A : Type)
  | done (a : A)
  | overflow
  | running
  deriving DecidableEq

/-- The loop of `next`, util.py:90-92: draws until the colour is unused. The random numbers are a list; the remaining ones
are returned. -/
def drawUnused (used : List UsedItem) : List Rgb → Draw (String × List Rgb)
  | [] => .running
  | d :: ds => if UsedItem.text (toHex d) ∈ used then drawUnused used ds else .done (toHex d, ds)

/-- `next`, util.py:86-95. Returns the colour, the new set of used colours and the remaining draws. -/
def nextColor (used : List UsedItem) (draws : List Rgb) : Draw (String × List UsedItem × List Rgb) :=
  if used.length = 256 ^ 3 then .overflow
  else match drawUnused used draws with
    | .done (c, ds) => .done (c, used ++ [.text c], ds)
    | .overflow => .overflow
    | .running => .running

/-- `used_colors.add(item)` of a python set. -/
def markUsed (used : List UsedItem) (i : UsedItem) : List UsedItem := if i ∈ used then used else used ++ [i]

/-- The provider, one cache of colours (`cached_colors` of a context), and the random numbers still to come. -/
structure Palette where
  used : List UsedItem
  cached : Dict String String
  draws : List Rgb
  deriving DecidableEq

/-- The colour of a name: `colors_provider`, patterns_graphs.py:90-99, for a name other than the undefined activity;
`generate_color`, event_log_analysis.py:310-318, for a name that satisfies the predicate; lines 217-218 with
`generate_color` of 200-201. All three return the cached colour or take the next one and cache it. -/
def Palette.colorOf (p : Palette) (name : String) : Draw (String × Palette) :=
  match p.cached.get? name with
  | some c => .done (c, p)
  | none =>
    match nextColor p.used p.draws with
    | .done (c, used, draws) => .done (c, { used := used, cached := p.cached.set name c, draws := draws })
    | .overflow => .overflow
    | .running => .running

/-- A colour taken from the provider without caching it: `color_provider.next()`, patterns_graphs.py:270, and
`SingleColorProvider`, util.py:104-113, when it is created or reset. -/
def Palette.uncached (p : Palette) : Draw (String × Palette) :=
  match nextColor p.used p.draws with
  | .done (c, used, draws) => .done (c, { p with used := used, draws := draws })
  | .overflow => .overflow
  | .running => .running

/-- `reset`, util.py:97-98, called by `Pipeline.execute` (pipelines.py:23) and per trace by
`draw_activity_placement_diagram` (patterns_graphs.py:284). -/
def Palette.reset (p : Palette) : Palette := { p with used := [] }

/-- `colors_provider.used_colors.add((0, 0, 0))`, event_log_analysis.py:307. -/
def Palette.markBlack (p : Palette) : Palette := { p with used := markUsed p.used (.triple (0, 0, 0)) }

/-- The colour drawn for an undefined activity, patterns_graphs.py:94-95 and 250, and the default colour of
event_log_analysis.py:308. -/
def undefinedColor : String := toHex (0, 0, 0)

end Ficus
