import Verif.Model.Hash
import Verif.Spec.Hash
import Verif.Proofs.Dict
import Mathlib.Tactic.Ring
import Mathlib.Tactic.Linarith
import Mathlib.Data.Int.ModEq

namespace Ficus
open Spec

theorem stringHashLoop_spec (cs : List Char) (h pw : Int) (hh : 0 ≤ h) (hlt : h < hashMod) :
    stringHashLoop cs h pw = (h + pw * poly31 (cs.map (fun c => 1 + (c.toNat : Int)))) % hashMod := by
  induction cs generalizing h pw with
  | nil => simp [stringHashLoop, poly31, Int.emod_eq_of_lt hh hlt]
  | cons c cs ih =>
    simp only [stringHashLoop, List.map_cons, poly31]
    rw [ih _ _ (Int.emod_nonneg _ (by decide)) (Int.emod_lt_of_pos _ (by decide))]
    apply Int.emod_emod_of_dvd _ (dvd_refl _) |>.symm.trans
    rw [Int.emod_emod_of_dvd _ (dvd_refl _)]
    have e : h + pw * (1 + (c.toNat : Int) + 31 * poly31 (cs.map (fun c => 1 + (c.toNat : Int)))) =
      (h + (1 + (c.toNat : Int)) * pw) + (pw * hashBase) * poly31 (cs.map (fun c => 1 + (c.toNat : Int))) := by
      unfold hashBase; ring
    rw [e, Int.add_emod, Int.mul_emod, Int.emod_emod_of_dvd _ (dvd_refl _), Int.emod_emod_of_dvd _ (dvd_refl _),
      ← Int.mul_emod, ← Int.add_emod]

theorem collHashLoop_spec {α : Type} (hash : α → Int) (coll : List α) (n i : Nat) (h pw : Int)
    (hh : 0 ≤ h) (hlt : h < hashMod) (hb : i + n ≤ coll.length) :
    collHashLoop hash coll n i h pw =
      .ok ((h + pw * poly31 (((coll.drop i).take n).map (fun x => 1 + hash x))) % hashMod) := by
  induction n generalizing i h pw with
  | zero => simp [collHashLoop, poly31, Int.emod_eq_of_lt hh hlt]
  | succ n ih =>
    have hi : i < coll.length := by omega
    simp only [collHashLoop, List.getElem?_eq_getElem hi]
    rw [ih _ _ _ (Int.emod_nonneg _ (by decide)) (Int.emod_lt_of_pos _ (by decide)) (by omega)]
    rw [List.drop_eq_getElem_cons hi]
    simp only [List.take_succ_cons, List.map_cons, poly31]
    congr 1
    have e : h + pw * (1 + hash coll[i] + 31 * poly31 (((coll.drop (i+1)).take n).map (fun x => 1 + hash x))) =
      (h + (1 + hash coll[i]) * pw) + (pw * hashBase) * poly31 (((coll.drop (i+1)).take n).map (fun x => 1 + hash x)) := by
      unfold hashBase; ring
    rw [e, Int.add_emod, Int.mul_emod, Int.emod_emod_of_dvd _ (dvd_refl _), Int.emod_emod_of_dvd _ (dvd_refl _),
      ← Int.mul_emod, ← Int.add_emod]

theorem collHashLoop_oob {α : Type} (hash : α → Int) (coll : List α) (n i : Nat) (h pw : Int)
    (hb : coll.length < i + n) (hn : 0 < n) :
    collHashLoop hash coll n i h pw = .error .indexError := by
  induction n generalizing i h pw with
  | zero => omega
  | succ n ih =>
    simp only [collHashLoop]
    by_cases hi : i < coll.length
    · simp only [List.getElem?_eq_getElem hi]
      exact ih _ _ _ (by omega) (by omega)
    · simp [List.getElem?_eq_none (by omega : coll.length ≤ i)]

theorem collHashAll_spec {α : Type} (hash : α → Int) (coll : List α) :
    collHashAll hash coll =
      if coll = [] then 0 else (1 + poly31 (coll.map (fun x => 1 + hash x))) % hashMod := by
  unfold collHashAll collHash
  by_cases h : coll = []
  · simp [h]
  · have : coll.length ≠ 0 := by simpa using h
    simp only [this, if_false, h, Option.getD_none, Nat.sub_zero]
    rw [collHashLoop_spec _ _ _ _ _ _ (by decide) (by decide) (by omega)]
    simp

theorem sort_eq_of_perm {l l' : List String} (h : l.Perm l') :
    l.insertionSort (fun a b => a ≤ b) = l'.insertionSort (fun a b => a ≤ b) := by
  have hs := List.pairwise_insertionSort (fun a b : String => a ≤ b)
  exact ((List.perm_insertionSort _ l).trans (h.trans (List.perm_insertionSort _ l').symm)).eq_of_pairwise
    (fun a b _ _ h1 h2 => String.le_antisymm h1 h2) (hs l) (hs l')

end Ficus
