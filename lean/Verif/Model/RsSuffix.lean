import Verif.Model.RsActivities

/-! Model of the suffix tree of the backend and of the search for repeats with it: utils/suffix_tree/ and
features/analysis/patterns/repeats.rs (all paths are below /repo/src/rust/ficus_backend/src). `none` is a panic, or that the fuel of a
loop is not enough. Elements are the hashes of a log. -/

namespace Ficus.Rs

/-- `SuffixTreeSlice`, suffix_tree_slice.rs:1-9. -/
structure Slice where
  len : Nat
  get : Nat → Option Nat
  equals : Nat → Nat → Bool
  subSlice : Nat → Nat → Option (List Nat)

/-- `SingleWordSuffixTreeSlice`, suffix_tree_slice.rs:27-54. Simplification: `sub_slice` panics outside of the word, here it is cut. -/
def Slice.single (w : List Nat) : Slice where
  len := w.length + 1
  get i := w[i]?
  equals i j := if i ≥ w.length ∨ j ≥ w.length then false else decide (w[i]? = w[j]?)
  subSlice start stop := some (slice w start (stop - start))

/-- `Node`, node.rs:4-13. -/
structure SNode where
  left : Nat
  right : Nat
  link : Option Nat
  parent : Option Nat
  children : Dict (Option Nat) Nat
  deriving DecidableEq, Repr

/-- `create_default`, node.rs:19-27. -/
def SNode.root : SNode := ⟨0, 0, none, none, []⟩

/-- `edge_len`, node.rs:33-35. -/
def SNode.edgeLen (n : SNode) : Nat := n.right - n.left

/-- `update_child`, node.rs:37-43. -/
def SNode.updateChild (element : Option Nat) (child : Nat) (n : SNode) : SNode := { n with children := n.children.set element child }

/-- `BuildState`, suffix_tree_build.rs:4-8. -/
structure BuildState where
  pos : Nat
  node : Option Nat
  deriving DecidableEq, Repr

/-- `go`, suffix_tree_build.rs:70-106, with fuel for its rounds. -/
def SGo (s : Slice) (nodes : List SNode) : Nat → BuildState → Nat → Nat → Option BuildState
  | 0, _, _, _ => none
  | fuel + 1, st, left, right =>
    if left < right then
      match st.node with
      | none => none
      | some index =>
        match nodes[index]? with
        | none => none
        | some n =>
          if st.pos = n.edgeLen then
            match n.children.get? (s.get left) with
            | none => some ⟨0, none⟩
            | some child => SGo s nodes fuel ⟨0, some child⟩ left right
          else if s.equals (n.left + st.pos) left = false then some ⟨0, none⟩
          else if right - left < n.edgeLen - st.pos then some ⟨st.pos + (right - left), st.node⟩
          else SGo s nodes fuel ⟨n.edgeLen, st.node⟩ (left + (n.edgeLen - st.pos)) right
    else some st

/-- `split`, suffix_tree_build.rs:108-150: the nodes and the result. -/
def SSplit (s : Slice) (nodes : List SNode) (st : BuildState) : Option (List SNode × Option Nat) := do
  let index ← st.node
  let n ← nodes[index]?
  if st.pos = n.edgeLen then return (nodes, some index)
  if st.pos = 0 then return (nodes, n.parent)
  let parent ← n.parent
  let nodes := nodes ++ [⟨n.left, n.left + st.pos, none, n.parent, []⟩]
  let nodes := nodes.modify parent (SNode.updateChild (s.get n.left) (nodes.length - 1))
  let nodes := nodes.modify (nodes.length - 1) (SNode.updateChild (s.get (n.left + st.pos)) index)
  let nodes := nodes.modify index (fun n => { n with parent := some (nodes.length - 1), left := n.left + st.pos })
  return (nodes, some (nodes.length - 1))

/-- `get_link`, suffix_tree_build.rs:152-193, with fuel for its depth: the nodes and the result. -/
def SLink (s : Slice) : Nat → List SNode → Nat → Option (List SNode × Nat)
  | 0, _, _ => none
  | fuel + 1, nodes, index =>
    match nodes[index]? with
    | none => none
    | some n =>
      match n.link with
      | some link => some (nodes, link)
      | none =>
        match n.parent with
        | none => some (nodes, 0)
        | some parent => do
          let (nodes, start) ← SLink s fuel nodes parent
          let target ← nodes[start]?
          let left := n.left + (if parent = 0 then 1 else 0)
          let next ← SGo s nodes (2 * (n.right - left) + 1) ⟨target.edgeLen, some start⟩ left n.right
          let (nodes, link) ← SSplit s nodes next
          let nodes := nodes.modify index (fun n => { n with link := link })
          return (nodes, ← link)

/-- The loop inside of `build_tree`, suffix_tree_build.rs:37-66, for the element at `pos`, with fuel for its rounds. -/
def buildAt (s : Slice) (pos : Nat) : Nat → List SNode → BuildState → Option (List SNode × BuildState)
  | 0, _, _ => none
  | fuel + 1, nodes, st =>
    match SGo s nodes 3 st pos (pos + 1) with
    | none => none
    | some ⟨next, some index⟩ => some (nodes, ⟨next, some index⟩)
    | some ⟨_, none⟩ => do
      let (nodes, mid?) ← SSplit s nodes st
      let mid ← mid?
      let nodes := nodes ++ [⟨pos, s.len, none, some mid, []⟩]
      let nodes := nodes.modify mid (SNode.updateChild (s.get pos) (nodes.length - 1))
      let (nodes, link) ← SLink s nodes.length nodes mid
      let target ← nodes[link]?
      let st : BuildState := ⟨target.edgeLen, some link⟩
      if mid = 0 then return (nodes, st) else buildAt s pos fuel nodes st

/-- `build_tree`, suffix_tree_build.rs:30-68: at each position the inner loop makes at most as many rounds as there are positions. -/
def buildTree (s : Slice) : Option (List SNode) := do
  let (nodes, _) ← (List.range s.len).foldlM (fun (st : List SNode × BuildState) pos => buildAt s pos (s.len + 1) st.1 st.2)
    ([SNode.root], ⟨0, some 0⟩)
  return nodes

/-! ### Repeats -/

/-- `RepeatType`, suffix_tree_repeats.rs:9-13. -/
inductive RepeatType
  | maximal | superMaximal | nearSuperMaximal
  deriving DecidableEq, Repr

/-- `get_element_for_suffix`, suffix_tree_patterns.rs:84-90. -/
def elementForSuffix (s : Slice) (suffixLength : Nat) : Option Nat :=
  if suffixLength + 1 > s.len then none else s.get (s.len - suffixLength - 1)

/-- `increase_in_map_by`, utils/hash_map_utils.rs:15-24. -/
def increaseBy (m : Dict (Option Nat) Nat) (e : Option Nat × Nat) : Dict (Option Nat) Nat :=
  m.set e.1 ((m.get? e.1).getD 0 + e.2)

/-- `compare_maps_by_keys`, utils/hash_map_utils.rs:37-58, where `None` is the one key that is never equal. -/
def sameKeys (first second : Dict (Option Nat) Nat) : Bool :=
  first.keys.all (fun k => k.isSome && second.contains k) && second.keys.all (fun k => k.isSome && first.contains k)

/-- What `dfs_repeats` leaves for a node: the entries of `nodes_to_awc` and `nodes_to_any_suffix_len`, and the repeats inserted below
it, suffix_tree_repeats.rs:64-118. -/
structure Below where
  leaf : Bool
  counts : Dict (Option Nat) Nat
  suffixLen : Nat
  repeats : List (Nat × Nat)

/-- Whether `add_repeats` goes on to the pairs of children, suffix_tree_repeats.rs:130-167. -/
def goesOn (s : Slice) (kind : RepeatType) (counts : Dict (Option Nat) Nat) (children : List (Nat × Below)) : Bool :=
  match kind with
  | .maximal => true
  | .superMaximal => children.all (fun c => c.2.leaf &&
      (elementForSuffix s c.2.suffixLen = none || counts.get? (elementForSuffix s c.2.suffixLen) = some 1))
  | .nearSuperMaximal => children.any (fun c => c.2.leaf &&
      (elementForSuffix s c.2.suffixLen ≠ none && counts.get? (elementForSuffix s c.2.suffixLen) = some 1))

/-- `add_repeats`, suffix_tree_repeats.rs:120-186: what it inserts. -/
def ownRepeats (s : Slice) (kind : RepeatType) (suffixLength : Nat) (counts : Dict (Option Nat) Nat) (children : List (Nat × Below)) :
    List (Nat × Nat) :=
  if goesOn s kind counts children then
    children.flatMap (fun first => children.flatMap (fun second =>
      if first.1 = second.1 then []
      else if sameKeys first.2.counts second.2.counts then []
      else [(s.len - first.2.suffixLen, s.len - first.2.suffixLen + suffixLength)]))
  else []

/-- The child with the smallest index, suffix_tree_repeats.rs:102-105. -/
def lowest : List (Nat × Below) → Option (Nat × Below)
  | [] => none
  | c :: cs =>
    match lowest cs with
    | none => some c
    | some d => some (if c.1 ≤ d.1 then c else d)

/-- `dfs_repeats`, suffix_tree_repeats.rs:64-118, with fuel for its depth. Children are taken in the order of insertion; in the code the
order of a hash map does not matter, as only maps and sets are filled. -/
def dfsRepeats (s : Slice) (nodes : List SNode) (kind : RepeatType) : Nat → Nat → Nat → Option Below
  | 0, _, _ => none
  | fuel + 1, index, before => do
    let n ← nodes[index]?
    let suffixLength := before + n.edgeLen
    if n.children = [] then return ⟨true, [(elementForSuffix s suffixLength, 1)], suffixLength, []⟩
    let children ← n.children.mapM (fun c => do return (c.2, ← dfsRepeats s nodes kind fuel c.2 suffixLength))
    let counts := children.foldl (fun m c => c.2.counts.foldl increaseBy m) []
    let first ← lowest children
    return ⟨false, counts, first.2.suffixLen, (children.flatMap (fun c => c.2.repeats)) ++
      (if suffixLength ≠ 0 then ownRepeats s kind suffixLength counts children else [])⟩

/-- The order of pairs, suffix_tree_repeats.rs:46. -/
def pairLe (a b : Nat × Nat) : Prop := a.1 < b.1 ∨ a.1 = b.1 ∧ a.2 ≤ b.2

instance : DecidableRel pairLe := fun a b => by unfold pairLe; infer_instance

/-- The loop that keeps one repeat per word, suffix_tree_repeats.rs:48-59. -/
def firstOfEach (s : Slice) : List (List Nat) → List (Nat × Nat) → List (Nat × Nat)
  | _, [] => []
  | seen, r :: rest =>
    match s.subSlice r.1 r.2 with
    | none => firstOfEach s seen rest
    | some word => if word ∈ seen then firstOfEach s seen rest else r :: firstOfEach s (word :: seen) rest

/-- `find_repeats`, suffix_tree_repeats.rs:32-62. -/
def treeRepeats (s : Slice) (nodes : List SNode) (kind : RepeatType) : Option (List (Nat × Nat)) := do
  let below ← dfsRepeats s nodes kind nodes.length 0 0
  return firstOfEach s [] (below.repeats.dedup.insertionSort pairLe)

/-- `find_from_all_traces`, features/analysis/patterns/repeats.rs:45-56, with the conversion of repeats.rs:24-31, for one trace. -/
def repeatsOfTrace (kind : RepeatType) (trace : List Nat) : Option (List SubArray) := do
  let nodes ← buildTree (Slice.single trace)
  return (← treeRepeats (Slice.single trace) nodes kind).map (fun r => ⟨r.1, r.2 - r.1⟩)

/-- `find_maximal_repeats`, `find_super_maximal_repeats` and `find_near_super_maximal_repeats` for all traces, each for itself,
repeats.rs:10-12, 45-56 and 96-102. -/
def repeatsFromAllTraces (kind : RepeatType) (log : List (List Nat)) : Option (List (List SubArray)) :=
  log.mapM (repeatsOfTrace kind)

/-! ### Merged traces -/

/-- `get_slice_info_for`, suffix_tree_slice.rs:125-144: from the word with the given number and start on. -/
def sliceInfo (index : Nat) : List (List Nat) → Nat → Nat → Option (Nat × Option Nat)
  | [], _, _ => none
  | w :: ws, start, number =>
    if index < start + w.length then some (number, some (index - start))
    else if index = start + w.length then some (number, none)
    else sliceInfo index ws (start + w.length + 1) (number + 1)

/-- `get` of several words, suffix_tree_slice.rs:90-96. -/
def multipleGet (words : List (List Nat)) (index : Nat) : Option Nat :=
  match sliceInfo index words 0 0 with
  | some (word, some i) => (words[word]?).bind (fun w => w[i]?)
  | _ => none

/-- `MultipleWordsSuffixTreeSlice`, suffix_tree_slice.rs:56-119. -/
def Slice.multiple (words : List (List Nat)) : Slice where
  len := (words.map List.length).sum + words.length
  get := multipleGet words
  equals i j := decide (multipleGet words i = multipleGet words j)
  subSlice start stop :=
    match sliceInfo start words 0 0, sliceInfo stop words 0 0 with
    | some (first, some i), some (last, stop?) =>
      if first ≠ last then none
      else
        let word := (words[first]?).getD []
        some (slice word i (stop?.getD word.length - i))
    | _, _ => none

/-- The loop over the patterns of the merged trace, repeats.rs:76-89: the trace and the sub-array in it. -/
def backToTrace (words : List (List Nat)) (r : Nat × Nat) : Option (Nat × SubArray) := do
  let first ← sliceInfo r.1 words 0 0
  let firstIndex ← first.2
  let second ← sliceInfo r.2 words 0 0
  let word ← words[first.1]?
  let secondIndex := second.2.getD word.length
  if secondIndex < firstIndex then none else return (first.1, ⟨firstIndex, secondIndex - firstIndex⟩)

/-- `find_from_single_merged_trace`, repeats.rs:58-94, with the conversion of repeats.rs:24-31. -/
def repeatsFromMerged (kind : RepeatType) (log : List (List Nat)) : Option (List (List SubArray)) := do
  let nodes ← buildTree (Slice.multiple log)
  let found ← (← treeRepeats (Slice.multiple log) nodes kind).mapM (backToTrace log)
  return (List.range log.length).map (fun t => (found.filter (fun p => decide (p.1 = t))).map Prod.snd)

end Ficus.Rs
