import Verif.Model.Base
/-! # List lemmas about `writeAt` and `Dict` -/
namespace Verif

@[simp] theorem zeros_length (n : Nat) : (zeros n).length = n := by simp [zeros]

theorem zeros_getElem? (n i : Nat) : (zeros n)[i]? = if i < n then some 0 else none := by
  simp [zeros, List.getElem?_replicate]

theorem getElem?_writeAt (v : Bytes) (off : Nat) (d : Bytes) (i : Nat) :
    (writeAt v off d)[i]? =
      if d = [] then v[i]?
      else if i < off then (if i < v.length then v[i]? else some 0)
      else if i < off + d.length then d[i - off]? else v[i]? := by
  unfold writeAt
  by_cases hd : d = []
  · simp [hd]
  · simp only [hd, if_false]
    by_cases h1 : i < off
    · simp only [h1, if_true]
      rw [List.append_assoc, List.append_assoc]
      by_cases h2 : i < v.length
      · rw [List.getElem?_append_left (by simp; omega)]
        simp [h2, h1]
      · rw [List.getElem?_append_right (by simp; omega)]
        rw [List.getElem?_append_left (by simp; omega)]
        simp only [h2, if_false, zeros_getElem?, List.length_take]
        rw [if_pos (by omega)]
    · simp only [h1, if_false]
      by_cases h2 : i < off + d.length
      · rw [List.getElem?_append_left (by simp; omega)]
        rw [List.getElem?_append_right (by simp; omega)]
        simp only [h2, if_true, List.length_append, List.length_take, zeros_length]
        congr 1; omega
      · rw [List.getElem?_append_right (by simp; omega)]
        simp only [h2, if_false, List.length_append, List.length_take, zeros_length,
          List.getElem?_drop]
        congr 1; omega

theorem writeAt_length (v : Bytes) (off : Nat) (d : Bytes) :
    (writeAt v off d).length = if d = [] then v.length else max v.length (off + d.length) := by
  unfold writeAt
  split
  · rfl
  · simp; omega

theorem writeAt_append (v : Bytes) (off : Nat) (a b : Bytes) :
    writeAt (writeAt v off a) (off + a.length) b = writeAt v off (a ++ b) := by
  apply List.ext_getElem?
  intro i
  simp only [getElem?_writeAt, writeAt_length, List.append_eq_nil_iff, List.length_append]
  by_cases ha : a = []
  · subst ha; simp
  by_cases hb : b = []
  · subst hb; simp [ha]
  simp only [ha, hb, if_false, false_and]
  have hpa : 0 < a.length := List.length_pos_iff.2 ha
  by_cases h1 : i < off
  · have h2 : i < off + a.length := by omega
    have h3 : i < max v.length (off + a.length) := by omega
    simp only [h1, h2, h3, if_true]
  · by_cases h2 : i < off + a.length
    · have h3 : i < max v.length (off + a.length) := by omega
      have h4 : i < off + (a.length + b.length) := by omega
      simp only [h1, h2, h3, h4, if_true, if_false]
      rw [List.getElem?_append_left (by omega)]
    · by_cases h3 : i < off + a.length + b.length
      · have h4 : i < off + (a.length + b.length) := by omega
        simp only [h1, h2, h3, h4, if_true, if_false]
        rw [List.getElem?_append_right (by omega)]
        congr 1; omega
      · have h4 : ¬ i < off + (a.length + b.length) := by omega
        simp only [h1, h2, h3, h4, if_false]

theorem writeAt_eq_splice (c : Bytes) (pos : Nat) (d : Bytes) (h : pos ≤ c.length) :
    writeAt c pos d = c.take pos ++ d ++ c.drop (pos + d.length) := by
  unfold writeAt
  split
  · rename_i hd; subst hd; simp
  · have : pos - c.length = 0 := by omega
    simp [this, zeros]

theorem writeAt_end (c d : Bytes) : writeAt c c.length d = c ++ d := by
  rw [writeAt_eq_splice _ _ _ (Nat.le_refl _)]
  simp

theorem zeros_append (a b : Nat) : zeros a ++ zeros b = zeros (a + b) := by
  simp [zeros]

namespace Dict
variable {K V : Type} [DecidableEq K]

theorem get?_append (a b : Dict K V) (k : K) :
    get? (a ++ b : Dict K V) k = (get? a k).or (get? b k) := by
  induction a with
  | nil => simp
  | cons e t ih =>
    obtain ⟨x, y⟩ := e
    simp only [List.cons_append, get?]
    split <;> simp [ih]

end Dict
end Verif
