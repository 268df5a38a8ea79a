import Verif.Proofs.RevResults
import Verif.Proofs.Tokenize
import Verif.Props.Schedule
import Mathlib.Data.List.TakeWhile
/-!
# C36: revision numbers, ids and keywords
-/
set_option linter.dupNamespace false
namespace Verif.Repo
open Verif

/-- The characters of a decimal number: at least one, all ASCII digits. -/
def IsDecimal (l : List Char) : Prop := l ≠ [] ∧ ∀ c ∈ l, c.isDigit = true

/-- The `n`-th newest revision, counted from 0, of a history that is listed oldest first. -/
def nthNewest (H : List Rev) (n : Nat) : Option Rev := if n < H.length then H[H.length - 1 - n]? else none

theorem trimmed_of_decimal {l : List Char} (h : IsDecimal l) : Trimmed l :=
  ⟨fun c hc => not_ws_of_digit (h.2 c (List.mem_of_head? hc)),
   fun c hc => not_ws_of_digit (h.2 c (List.mem_of_getLast? hc))⟩

theorem find_trimmed {c : Ctx} {s : String} (ht : Trimmed s.toList) (hne : s ≠ "") (hH : c.history ≠ []) :
    find c s = tryFinds [findByNumber c.history s, findByUuid c.history s, findByTag c.history s,
      findByFunction c s] := by
  unfold find
  dsimp only
  rw [strip_trimmed ht, String.ofList_toList, if_neg (by simp [hne, hH])]

theorem reverse_getElem? (H : List Rev) (n : Nat) : H.reverse[n]? = nthNewest H n := by
  unfold nthNewest
  split
  · rename_i h; rw [List.getElem?_reverse h]
  · rename_i h; rw [List.getElem?_eq_none]; simpa using h

theorem not_call_of_decimal {s : String} (h : IsDecimal s.toList) : isFirstLastCall s = false := by
  unfold isFirstLastCall
  dsimp only
  rw [Bool.and_eq_false_iff]
  right
  cases hg : s.toList.getLast? with
  | none => rfl
  | some c =>
    have hd := h.2 c (List.mem_of_getLast? hg)
    rw [beq_eq_false_iff_ne]
    intro he
    cases he
    revert hd; decide

/-- **C36** a decimal number selects that many steps back from the newest revision. -/
theorem C36_number (c : Ctx) (s : String) (h : IsDecimal s.toList)
    (hlt : decimalValue s.toList < c.history.length) :
    ∃ r, nthNewest c.history (decimalValue s.toList) = some r ∧ find c s = .ok r := by
  have hH : c.history ≠ [] := by intro he; rw [he] at hlt; simp at hlt
  have hne : s ≠ "" := by rintro rfl; exact h.1 rfl
  rw [find_trimmed (trimmed_of_decimal h) hne hH]
  have hn : nthNewest c.history (decimalValue s.toList) =
      some (c.history[c.history.length - 1 - decimalValue s.toList]'(by omega)) := by
    unfold nthNewest
    rw [if_pos hlt, List.getElem?_eq_getElem]
  refine ⟨_, hn, ?_⟩
  unfold findByNumber
  rw [pyInt_digits _ h.1 h.2]
  dsimp only
  rw [if_neg (by omega), Int.toNat_natCast, reverse_getElem?, hn]
  rfl

/-- **C36** a number that is too large is not silently another revision: it is an error unless some revision
has exactly this text as its id. -/
theorem C36_number_too_large (c : Ctx) (s : String) (h : IsDecimal s.toList)
    (hge : c.history.length ≤ decimalValue s.toList) (hid : ∀ r ∈ c.history, r.uuid ≠ s) :
    find c s = .error .key := by
  by_cases hH : c.history = []
  · unfold find; dsimp only; rw [if_pos (.inr hH)]
  have hne : s ≠ "" := by rintro rfl; exact h.1 rfl
  rw [find_trimmed (trimmed_of_decimal h) hne hH]
  have h1 : findByNumber c.history s = .error .index := by
    unfold findByNumber
    rw [pyInt_digits _ h.1 h.2]
    dsimp only
    rw [if_neg (by omega), Int.toNat_natCast, reverse_getElem?]
    unfold nthNewest
    rw [if_neg (by omega)]
  have h2 : findByUuid c.history s = .error .index := by
    unfold findByUuid
    rw [List.find?_eq_none.2 (by simpa using hid)]
  have hk : ∀ k : String, IsDecimal k.toList → k ≠ "last" ∧ k ≠ "latest" ∧ k ≠ "first" := by
    intro k hk
    refine ⟨?_, ?_, ?_⟩ <;> (rintro rfl; revert hk; unfold IsDecimal; decide)
  have h3 : findByTag c.history s = .error .value := by
    unfold findByTag
    rw [if_neg (by simp [hk s h]), if_neg (hk s h).2.2]
  have h4 : findByFunction c s = .error .value := by
    unfold findByFunction
    rw [not_call_of_decimal h]
    rfl
  rw [h1, h2, h3, h4]
  rfl

/-- **C36** negative numbers are rejected. -/
theorem C36_negative (c : Ctx) (l : List Char) (h : IsDecimal l) (hpos : 0 < decimalValue l) :
    find c (String.ofList ('-' :: l)) = .error .key := by
  by_cases hH : c.history = []
  · unfold find; dsimp only; rw [if_pos (.inr hH)]
  have ht : Trimmed ('-' :: l) := by
    refine ⟨fun c hc => by cases hc; decide, fun c hc => ?_⟩
    have hne := h.1
    rw [List.getLast?_cons, List.getLast?_eq_some_getLast hne] at hc
    simp only [Option.getD_some, Option.some.injEq] at hc
    subst hc
    exact not_ws_of_digit (h.2 _ (List.getLast_mem hne))
  rw [find_trimmed (by rw [String.toList_ofList]; exact ht) (by simp) hH]
  have h1 : findByNumber c.history (String.ofList ('-' :: l)) = .error .key := by
    unfold findByNumber
    rw [String.toList_ofList]
    have hp : pyInt ('-' :: l) = some (-(decimalValue l : Int)) := by
      have := pyInt_digits l h.1 h.2
      rw [pyInt]
      cases l with
      | nil => exact absurd rfl h.1
      | cons a t =>
        have ha := h.2 a (by simp)
        have hm : a ≠ '-' := by rintro rfl; exact absurd ha (by decide)
        have hpl : a ≠ '+' := by rintro rfl; exact absurd ha (by decide)
        unfold pyInt at this
        split at this
        · rename_i heq; cases heq; exact absurd rfl hm
        · rename_i heq; cases heq; exact absurd rfl hpl
        · cases hn : pyNat (a :: t) with
          | none => rw [hn] at this; cases this
          | some n =>
            rw [hn] at this
            simp at this ⊢
            omega
    rw [hp]
    dsimp only
    rw [if_pos (by omega)]
  rw [h1]
  rfl

/-- **C36** an id selects its revision (ids do not look like numbers and ids are unique). -/
theorem C36_id (c : Ctx) (r : Rev) (hr : r ∈ c.history) (hu : (c.history.map Rev.uuid).Nodup)
    (ht : Trimmed r.uuid.toList) (hne : r.uuid ≠ "") (hnum : pyInt r.uuid.toList = none) :
    find c r.uuid = .ok r := by
  have hH : c.history ≠ [] := by intro he; rw [he] at hr; simp at hr
  rw [find_trimmed ht hne hH]
  have h1 : findByNumber c.history r.uuid = .error .value := by
    unfold findByNumber; rw [hnum]
  have h2 : findByUuid c.history r.uuid = .ok r := by
    unfold findByUuid
    cases hf : c.history.find? (fun x => x.uuid = r.uuid) with
    | none => rw [List.find?_eq_none] at hf; exact absurd (decide_eq_true rfl) (hf r hr)
    | some x =>
      have hx := List.mem_of_find?_eq_some hf
      have hxu := List.find?_some hf
      simp only [decide_eq_true_eq] at hxu
      rw [List.inj_on_of_nodup_map hu hx hr hxu]
  rw [h1, h2]
  rfl

/-- **C36** the keywords select the newest and the oldest revision (no revision has a keyword as id). -/
theorem C36_keywords (c : Ctx) (hid : ∀ r ∈ c.history, r.uuid ≠ "last" ∧ r.uuid ≠ "latest" ∧ r.uuid ≠ "first")
    (hne : c.history ≠ []) :
    find c "last" = .ok (c.history.getLast hne) ∧ find c "latest" = .ok (c.history.getLast hne) ∧
      find c "first" = .ok (c.history.head hne) := by
  have hu : ∀ k, (∀ r ∈ c.history, r.uuid ≠ k) → findByUuid c.history k = .error .index := by
    intro k hk
    unfold findByUuid
    rw [List.find?_eq_none.2 (by simpa using hk)]
  have hn : ∀ k : String, pyInt k.toList = none → findByNumber c.history k = .error .value := by
    intro k hk; unfold findByNumber; rw [hk]
  have htr : ∀ k : String, k ∈ ["last", "latest", "first"] → Trimmed k.toList ∧ k ≠ "" ∧ pyInt k.toList = none := by
    intro k hk
    simp only [List.mem_cons, List.not_mem_nil, or_false] at hk
    rcases hk with rfl | rfl | rfl
    all_goals
      refine ⟨⟨?_, ?_⟩, by decide, by decide⟩
      · intro c hc; revert hc; revert c; decide +kernel
      · intro c hc; revert hc; revert c; decide +kernel
  obtain ⟨a1, a2, a3⟩ := htr "last" (by simp)
  obtain ⟨b1, b2, b3⟩ := htr "latest" (by simp)
  obtain ⟨d1, d2, d3⟩ := htr "first" (by simp)
  have hl : c.history.getLast? = some (c.history.getLast hne) := List.getLast?_eq_some_getLast hne
  have hh : c.history.head? = some (c.history.head hne) := List.head?_eq_some_head hne
  refine ⟨?_, ?_, ?_⟩
  · rw [find_trimmed a1 a2 hne, hn _ a3, hu _ (fun r hr => (hid r hr).1)]
    simp [tryFinds, findByTag, hl]
  · rw [find_trimmed b1 b2 hne, hn _ b3, hu _ (fun r hr => (hid r hr).2.1)]
    simp [tryFinds, findByTag, hl]
  · rw [find_trimmed d1 d2 hne, hn _ d3, hu _ (fun r hr => (hid r hr).2.2)]
    simp [tryFinds, findByTag, hh]

/-- **C36** an empty repository or an empty text has no revision. -/
theorem C36_empty (c : Ctx) (s : String) (h : c.history = [] ∨ ∀ x ∈ s.toList, x.isWhitespace = true) :
    find c s = .error .key := by
  unfold find
  dsimp only
  rw [if_pos]
  rcases h with h | h
  · exact .inr h
  · left
    have : s.toList.dropWhile Char.isWhitespace = [] := by
      exact List.dropWhile_eq_nil_iff.2 h
    unfold strip
    rw [this]; rfl

/-- A call of `first` or `last`: the name, an opening parenthesis, an argument of at least one character that is on one line,
and a closing parenthesis. -/
def IsCall (s : String) : Prop :=
  ∃ arg : List Char, arg ≠ [] ∧ '\n' ∉ arg ∧
    (s.toList = "first(".toList ++ arg ++ [')'] ∨ s.toList = "last(".toList ++ arg ++ [')'])

theorem prefix_call {p l : List Char} (hp : '\n' ∉ p) (h1 : p.isPrefixOf l = true) (h2 : l.length > p.length + 1)
    (h3 : '\n' ∉ l) (h4 : l.getLast? = some ')') :
    ∃ arg : List Char, arg ≠ [] ∧ '\n' ∉ arg ∧ l = p ++ arg ++ [')'] := by
  obtain ⟨t, rfl⟩ := List.isPrefixOf_iff_prefix.1 h1
  have ht : t ≠ [] := by rintro rfl; simp at h2
  rw [List.getLast?_append_of_ne_nil _ ht] at h4
  obtain ⟨u, rfl⟩ : ∃ u, t = u ++ [')'] := by
    have := List.dropLast_append_getLast? _ h4
    exact ⟨_, this.symm⟩
  refine ⟨u, ?_, ?_, by simp⟩
  · rintro rfl; simp at h2
  · intro h; apply h3; simp [h]

theorem isFirstLastCall_iff (s : String) : isFirstLastCall s = true ↔ IsCall s := by
  unfold isFirstLastCall IsCall
  dsimp only
  simp only [Bool.and_eq_true, Bool.or_eq_true, decide_eq_true_eq, Bool.not_eq_true', beq_iff_eq]
  constructor
  · rintro ⟨⟨h, hn⟩, hl⟩
    have hn' : '\n' ∉ s.toList := by simpa using hn
    rcases h with ⟨h1, h2⟩ | ⟨h1, h2⟩
    · obtain ⟨a, a1, a2, a3⟩ := prefix_call (by decide) h1 h2 hn' hl
      exact ⟨a, a1, a2, .inl a3⟩
    · obtain ⟨a, a1, a2, a3⟩ := prefix_call (by decide) h1 h2 hn' hl
      exact ⟨a, a1, a2, .inr a3⟩
  · rintro ⟨a, a1, a2, h⟩
    have hlen : 0 < a.length := List.length_pos_iff.2 a1
    rcases h with h | h <;> rw [h]
    · refine ⟨⟨.inl ⟨List.isPrefixOf_iff_prefix.2 ⟨a ++ [')'], by simp⟩, by simp; omega⟩, by simp [a2]⟩, by rw [List.getLast?_append_of_ne_nil _ (by simp)]; rfl⟩
    · refine ⟨⟨.inr ⟨List.isPrefixOf_iff_prefix.2 ⟨a ++ [')'], by simp⟩, by simp; omega⟩, by simp [a2]⟩, by rw [List.getLast?_append_of_ne_nil _ (by simp)]; rfl⟩

/-- **C36** whatever is neither a number, an id, a keyword nor a `first(...)`/`last(...)` call is a lookup
error. -/
theorem C36_unknown (c : Ctx) (s : String) (ht : Trimmed s.toList) (hnum : pyInt s.toList = none)
    (hid : ∀ r ∈ c.history, r.uuid ≠ s) (hk : s ≠ "last" ∧ s ≠ "latest" ∧ s ≠ "first")
    (hf : ¬ IsCall s) : find c s = .error .key := by
  rw [← isFirstLastCall_iff, Bool.not_eq_true] at hf
  by_cases hH : c.history = []
  · exact C36_empty c s (.inl hH)
  by_cases hne : s = ""
  · exact C36_empty c s (.inr (by simp [hne]))
  rw [find_trimmed ht hne hH]
  have h1 : findByNumber c.history s = .error .value := by unfold findByNumber; rw [hnum]
  have h2 : findByUuid c.history s = .error .index := by
    unfold findByUuid
    rw [List.find?_eq_none.2 (by simpa using hid)]
  have h3 : findByTag c.history s = .error .value := by
    unfold findByTag
    rw [if_neg (by simp [hk]), if_neg hk.2.2]
  have h4 : findByFunction c s = .error .value := by unfold findByFunction; rw [hf]; rfl
  rw [h1, h2, h3, h4]
  rfl

/-! ### Concrete cases -/

/-- Three revisions, oldest first. -/
def exCtx : Ctx :=
  { history := [mkRev "aXk" 10 {"daily"}, mkRev "bYm" 20 {"weekly"} "srv", mkRev "cZn" 30 {"daily"}]
    parseDate := fun _ => none }

example : IsDecimal "1".toList ∧ decimalValue "1".toList < exCtx.history.length := by
  unfold IsDecimal; decide +kernel
example : find exCtx "1" = .ok (mkRev "bYm" 20 {"weekly"} "srv") := by decide +kernel
example : find exCtx "3" = .error .key := by decide +kernel
example : find exCtx "-1" = .error .key := by decide +kernel
example : pyInt (mkRev "bYm" 20 {"weekly"} "srv").uuid.toList = none := by decide +kernel
example : find exCtx "bYm" = .ok (mkRev "bYm" 20 {"weekly"} "srv") := by decide +kernel
example : find exCtx "first" = .ok (mkRev "aXk" 10 {"daily"}) := by decide +kernel
example : find exCtx " latest " = .ok (mkRev "cZn" 30 {"daily"}) := by decide +kernel
example : ¬ IsCall "nope" ∧ find exCtx "nope" = .error .key :=
  ⟨by rw [← isFirstLastCall_iff]; decide +kernel, by decide +kernel⟩
example : ¬ IsCall "last()" ∧ find exCtx "last()" = .error .key :=
  ⟨by rw [← isFirstLastCall_iff]; decide +kernel,
   C36_unknown exCtx "last()" ⟨by decide +kernel, by decide +kernel⟩ (by decide +kernel) (by decide +kernel) (by decide +kernel)
    (by rw [← isFirstLastCall_iff]; decide +kernel)⟩

/-! Instances: what the theorems say of the example. -/

example := C36_number exCtx "1" (by unfold IsDecimal; decide +kernel) (by decide +kernel)
example := C36_number_too_large exCtx "3" (by unfold IsDecimal; decide +kernel) (by decide +kernel) (by decide +kernel)
example := C36_negative exCtx ['1'] (by unfold IsDecimal; decide +kernel) (by decide +kernel)
example := C36_id exCtx (mkRev "bYm" 20 {"weekly"} "srv") (by decide +kernel) (by decide +kernel) ⟨by decide +kernel, by decide +kernel⟩ (by decide +kernel)
  (by decide +kernel)
example := C36_keywords exCtx (by decide +kernel) (by decide +kernel)
example := C36_empty exCtx " " (.inr (by decide +kernel))

end Verif.Repo
