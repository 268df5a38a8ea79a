import Verif.Proofs.RevExpr
/-!
# Positions of revisions and dates in the history (`repository.py:452-488`)
-/
set_option linter.dupNamespace false
namespace Verif.Repo
open Verif Verif.Repo.Spec

/-- The doubled position `i` lies at time `t`: exactly the revisions up to `t` are not after it, and exactly
those from `t` on are not before it. -/
def Marks (H : List Rev) (i t : Int) : Prop :=
  ∀ (k : Nat) (r : Rev), H[k]? = some r → ((2 * (k : Int) ≤ i ↔ r.ts ≤ t) ∧ (i ≤ 2 * (k : Int) ↔ t ≤ r.ts))

theorem between_marks {H : List Rev} {i j a b : Int} (hi : Marks H i a) (hj : Marks H j b) :
    between H i j = H.filter (fun r => decide (min a b ≤ r.ts ∧ r.ts ≤ max a b)) := by
  unfold between
  have h1 : H.zipIdx.filter (fun x => decide (min i j ≤ 2 * (x.2 : Int) ∧ 2 * (x.2 : Int) ≤ max i j)) =
      H.zipIdx.filter ((fun r : Rev => decide (min a b ≤ r.ts ∧ r.ts ≤ max a b)) ∘ Prod.fst) := by
    apply List.filter_congr
    rintro ⟨r, k⟩ hk
    have hk' : H[k]? = some r := by simpa using List.mem_zipIdx_iff_getElem?.1 hk
    obtain ⟨p1, p2⟩ := hi k r hk'
    obtain ⟨q1, q2⟩ := hj k r hk'
    simp only [Function.comp, decide_eq_decide]
    omega
  rw [h1, ← List.filter_map]
  congr 1
  exact List.zipIdx_map_fst 0 H

theorem mem_indicesOf {p : Rev → Bool} {H : List Rev} {k : Nat} :
    k ∈ indicesOf p H ↔ ∃ r, H[k]? = some r ∧ p r = true := by
  unfold indicesOf
  rw [List.mem_filter, List.mem_range]
  constructor
  · rintro ⟨h1, h2⟩
    rw [List.getElem?_eq_getElem h1] at h2 ⊢
    exact ⟨_, rfl, h2⟩
  · rintro ⟨r, h1, h2⟩
    have := (List.getElem?_eq_some_iff.1 h1).1
    exact ⟨this, by rw [h1]; exact h2⟩

theorem indicesOf_sorted (p : Rev → Bool) (H : List Rev) : (indicesOf p H).Pairwise (· < ·) :=
  List.pairwise_lt_range.filter _

theorem head?_min {l : List Nat} (hs : l.Pairwise (· < ·)) {i : Nat} (h : l.head? = some i) :
    i ∈ l ∧ ∀ k ∈ l, i ≤ k := by
  cases l with
  | nil => cases h
  | cons a t =>
    cases h
    rw [List.pairwise_cons] at hs
    refine ⟨by simp, ?_⟩
    intro k hk
    rcases List.mem_cons.1 hk with rfl | hk
    · exact Nat.le_refl _
    · exact Nat.le_of_lt (hs.1 k hk)

theorem getLast?_max {l : List Nat} (hs : l.Pairwise (· < ·)) {i : Nat} (h : l.getLast? = some i) :
    i ∈ l ∧ ∀ k ∈ l, k ≤ i := by
  refine ⟨List.mem_of_getLast? h, ?_⟩
  intro k hk
  obtain ⟨l', rfl⟩ := List.getLast?_eq_some_iff.1 h
  rw [List.pairwise_append] at hs
  rcases List.mem_append.1 hk with h | h
  · exact Nat.le_of_lt (hs.2.2 k h i (by simp))
  · simp only [List.mem_singleton] at h; omega

/-- Strictly increasing times. -/
def Strict (H : List Rev) : Prop := H.Pairwise (fun a b => a.ts < b.ts)

theorem strict_idx {H : List Rev} (h : Strict H) {i j : Nat} {a b : Rev} (ha : H[i]? = some a) (hb : H[j]? = some b) :
    (i < j ↔ a.ts < b.ts) ∧ (i ≤ j ↔ a.ts ≤ b.ts) := by
  obtain ⟨h1, rfl⟩ := List.getElem?_eq_some_iff.1 ha
  obtain ⟨h2, rfl⟩ := List.getElem?_eq_some_iff.1 hb
  have hp := List.pairwise_iff_getElem.1 h
  rcases Nat.lt_trichotomy i j with hlt | rfl | hgt
  · have := hp i j h1 h2 hlt; omega
  · omega
  · have := hp j i h2 h1 hgt; omega

theorem historyIndex_marks {H : List Rev} (hs : Strict H) {r : Rev} (hr : r ∈ H) :
    ∃ i, historyIndex H r = .ok i ∧ Marks H i r.ts := by
  unfold historyIndex
  cases hf : H.findIdx? (fun x => decide (x = r)) with
  | none =>
    rw [List.findIdx?_eq_none_iff] at hf
    exact absurd (hf r hr) (by simp)
  | some i =>
    refine ⟨_, rfl, ?_⟩
    rw [List.findIdx?_eq_some_iff_getElem] at hf
    obtain ⟨h1, h2, _⟩ := hf
    simp only [decide_eq_true_eq] at h2
    intro k x hk
    have := strict_idx hs hk (b := r) (j := i) (by rw [List.getElem?_eq_getElem h1, h2])
    have := strict_idx hs (a := r) (i := i) (by rw [List.getElem?_eq_getElem h1, h2]) hk
    omega

theorem indexByDate_marks {c : Ctx} (hs : Strict c.history) {s : String} {d : Int} (hd : c.parseDate s = some d) :
    ∃ i, indexByDate c s = .ok (some i) ∧ Marks c.history i d ∧
      (i = 0 → ∃ r, c.history.head? = some r ∧ r.ts = d) := by
  -- left end
  have hL : ∃ L : Int, lastOr (indicesOf (fun r => decide (r.ts ≤ d)) c.history) (-1) = L ∧ -1 ≤ L ∧ L < c.history.length ∧
      ∀ (k : Nat) (r : Rev), c.history[k]? = some r → (r.ts ≤ d ↔ (k : Int) ≤ L) := by
    unfold lastOr
    cases hg : (indicesOf (fun r => decide (r.ts ≤ d)) c.history).getLast? with
    | none =>
      refine ⟨-1, rfl, by omega, by omega, ?_⟩
      intro k r hk
      have : indicesOf (fun r => decide (r.ts ≤ d)) c.history = [] := List.getLast?_eq_none_iff.1 hg
      constructor
      · intro h
        have : k ∈ indicesOf (fun r => decide (r.ts ≤ d)) c.history := mem_indicesOf.2 ⟨r, hk, by simpa using h⟩
        simp_all
      · intro h; omega
    | some i =>
      obtain ⟨h1, h2⟩ := getLast?_max (indicesOf_sorted _ _) hg
      obtain ⟨x, hx, hxd⟩ := mem_indicesOf.1 h1
      simp only [decide_eq_true_eq] at hxd
      refine ⟨i, rfl, by omega, ?_, ?_⟩
      · have := (List.getElem?_eq_some_iff.1 hx).1; omega
      · intro k r hk
        constructor
        · intro h
          have := h2 k (mem_indicesOf.2 ⟨r, hk, by simpa using h⟩)
          omega
        · intro h
          have := (strict_idx hs hk hx).2
          omega
  have hR : ∃ R : Int, headOr (indicesOf (fun r => decide (r.ts ≥ d)) c.history) c.history.length = R ∧ 0 ≤ R ∧ R ≤ c.history.length ∧
      ∀ (k : Nat) (r : Rev), c.history[k]? = some r → (d ≤ r.ts ↔ R ≤ (k : Int)) := by
    unfold headOr
    cases hg : (indicesOf (fun r => decide (r.ts ≥ d)) c.history).head? with
    | none =>
      refine ⟨c.history.length, rfl, by omega, by omega, ?_⟩
      intro k r hk
      have he : indicesOf (fun r => decide (r.ts ≥ d)) c.history = [] := List.head?_eq_none_iff.1 hg
      have hlt := (List.getElem?_eq_some_iff.1 hk).1
      constructor
      · intro h
        have : k ∈ indicesOf (fun r => decide (r.ts ≥ d)) c.history := mem_indicesOf.2 ⟨r, hk, by simpa using h⟩
        simp_all
      · intro h; omega
    | some i =>
      obtain ⟨h1, h2⟩ := head?_min (indicesOf_sorted _ _) hg
      obtain ⟨x, hx, hxd⟩ := mem_indicesOf.1 h1
      simp only [ge_iff_le, decide_eq_true_eq] at hxd
      refine ⟨i, rfl, by omega, ?_, ?_⟩
      · have := (List.getElem?_eq_some_iff.1 hx).1; omega
      · intro k r hk
        constructor
        · intro h
          have := h2 k (mem_indicesOf.2 ⟨r, hk, by simpa using h⟩)
          omega
        · intro h
          have := (strict_idx hs hx hk).2
          omega
  obtain ⟨L, eL, l1, l2, l3⟩ := hL
  obtain ⟨R, eR, r1, r2, r3⟩ := hR
  have hRL : R ≤ L + 1 := by
    by_cases hlt : L + 1 < c.history.length
    · have hk : c.history[(L + 1).toNat]? = some (c.history[(L + 1).toNat]'(by omega)) :=
        List.getElem?_eq_getElem _
      have h1 := l3 _ _ hk
      have h2 := r3 _ _ hk
      omega
    · omega
  have hLR : L ≤ R := by
    by_cases h : R < L
    · have hk : c.history[R.toNat]? = some (c.history[R.toNat]'(by omega)) := List.getElem?_eq_getElem _
      have hk' : c.history[L.toNat]? = some (c.history[L.toNat]'(by omega)) := List.getElem?_eq_getElem _
      have h1 := r3 _ _ hk
      have h2 := l3 _ _ hk'
      have h3 := (strict_idx hs hk hk').1
      omega
    · omega
  refine ⟨L + R, ?_, ?_, ?_⟩
  · unfold indexByDate
    rw [hd]
    dsimp only
    rw [eL, eR, if_pos (by omega)]
  · intro k r hk
    have h1 := l3 k r hk
    have h2 := r3 k r hk
    omega
  · intro h0
    have hR0 : R = 0 := by omega
    have hL0 : L = 0 := by omega
    have hk : c.history[0]? = some (c.history[0]'(by omega)) := List.getElem?_eq_getElem _
    refine ⟨_, by rw [List.head?_eq_getElem?]; exact hk, ?_⟩
    have h1 := l3 _ _ hk
    have h2 := r3 _ _ hk
    omega

end Verif.Repo
