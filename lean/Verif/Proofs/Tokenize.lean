import Verif.Model.RevSpec
/-!
# Strings that the tokenizer leaves alone (`repository.py:381-385`)
-/
set_option linter.dupNamespace false
namespace Verif.Repo
open Verif

/-- No separator of revision expressions occurs in the text: none of `( ) , &` and no two consecutive
dots. -/
def NoSep : List Char → Prop
  | [] => True
  | '.' :: '.' :: _ => False
  | c :: t => c ≠ '(' ∧ c ≠ ')' ∧ c ≠ ',' ∧ c ≠ '&' ∧ NoSep t

/-- The text does not begin or end with whitespace. -/
def Trimmed (l : List Char) : Prop :=
  (∀ c, l.head? = some c → c.isWhitespace = false) ∧ (∀ c, l.getLast? = some c → c.isWhitespace = false)

theorem strip_trimmed {l : List Char} (h : Trimmed l) : strip l = l := by
  have hd : ∀ l : List Char, (∀ c, l.head? = some c → c.isWhitespace = false) →
      l.dropWhile Char.isWhitespace = l := by
    intro l h
    cases l with
    | nil => rfl
    | cons c t => rw [List.dropWhile_cons_of_neg]; simp [h c rfl]
  unfold strip
  rw [hd l h.1, hd _ (fun c hc => h.2 c (by simpa using hc)), List.reverse_reverse]

theorem tokenizeAux_noSep : ∀ (l cur : List Char), NoSep l → tokenizeAux l cur = pushTok (cur ++ l) []
  | [], cur, _ => by rw [tokenizeAux, List.append_nil]
  | c :: t, cur, h => by
    unfold NoSep at h
    split at h
    · cases ‹_ :: _ = _›
    · exact h.elim
    · rename_i c' t' h1 heq
      cases heq
      obtain ⟨a1, a2, a3, a4, a5⟩ := h
      rw [tokenizeAux, tokenizeAux_noSep t _ a5]
      · simp
      · exact fun h => a1 h
      · exact fun h => a2 h
      · exact fun h => a3 h
      · exact fun h => a4 h
      · intro t' hc ht
        exact h1 t' hc ht

theorem tokenize_noSep {l : List Char} (h : NoSep l) (ht : Trimmed l) (hne : l ≠ []) :
    tokenize (String.ofList l) = [String.ofList l] := by
  unfold tokenize
  rw [String.toList_ofList, tokenizeAux_noSep l [] h, List.nil_append]
  unfold pushTok
  rw [strip_trimmed ht, if_neg hne]

/-- A tag that can be used in a `tag:` expression: no separators, no whitespace at its ends. -/
def PlainTag (t : String) : Prop := NoSep t.toList ∧ Trimmed t.toList

theorem evalToks_atom (c : Ctx) (s : String) (h1 : s ≠ "(") (h3 : s ≠ ",") (h4 : s ≠ "&") (h5 : s ≠ "..") :
    evalToks c [.str s] = evalAtom c s := by
  rw [evalToks, if_neg (by simp [Ne.symm h1])]
  have hs : ∀ v : String, v ≠ s → splitFirst (.str v) [.str s] = none := by
    intro v hv
    simp [splitFirst, Ne.symm hv]
  split
  · rename_i a b heq
    rw [hs _ (Ne.symm h3)] at heq; cases heq
  · split
    · rename_i a b heq
      rw [hs _ (Ne.symm h4)] at heq; cases heq
    · rw [hs _ (Ne.symm h5)]
      rfl

theorem startsWith_append (p s : String) : startsWith (p ++ s) p = true := by
  simp [startsWith, String.toList_append]

theorem dropPrefix_append (p s : String) : dropPrefix (p ++ s) p = s := by
  simp [dropPrefix, String.toList_append]

theorem noSep_cons {c : Char} {t : List Char} (h : c ≠ '.' ∧ c ≠ '(' ∧ c ≠ ')' ∧ c ≠ ',' ∧ c ≠ '&')
    (ht : NoSep t) : NoSep (c :: t) := by
  unfold NoSep
  split
  · cases ‹_ :: _ = _›
  · rename_i heq; cases heq; exact h.1 rfl
  · rename_i heq; cases heq; exact ⟨h.2.1, h.2.2.1, h.2.2.2.1, h.2.2.2.2, ht⟩

theorem noSep_append_left {l : List Char} (h : NoSep l) : NoSep ("tag:".toList ++ l) :=
  noSep_cons (by decide) (noSep_cons (by decide) (noSep_cons (by decide) (noSep_cons (by decide) h)))

theorem findRevisions_tag (c : Ctx) (t : String) (h : PlainTag t) :
    findRevisions c ("tag:" ++ t) = .ok (c.history.filter (fun r => decide (t ∈ r.tags))) := by
  have hl : ("tag:" ++ t).toList = "tag:".toList ++ t.toList := String.toList_append
  have htok : tokenize ("tag:" ++ t) = ["tag:" ++ t] := by
    have := tokenize_noSep (l := ("tag:" ++ t).toList) (by rw [hl]; exact noSep_append_left h.1) ?_ ?_
    · rw [String.ofList_toList] at this; exact this
    · rw [hl]
      constructor
      · intro c hc
        have : c = 't' := by
          have : ("tag:".toList ++ t.toList).head? = some 't' := rfl
          rw [this] at hc; cases hc; rfl
        subst this; decide
      · intro c hc
        rw [List.getLast?_append] at hc
        cases hg : t.toList.getLast? with
        | some x => rw [hg] at hc; cases hc; exact h.2.2 _ hg
        | none =>
          rw [hg] at hc
          have : "tag:".toList.getLast? = some ':' := by decide
          rw [this] at hc
          cases hc; decide
    · rw [hl]; simp
  have hne : ∀ v : String, v.toList.length < 4 → "tag:" ++ t ≠ v := by
    intro v hv he
    have := congrArg (fun s => s.toList.length) he
    simp only [String.toList_append, List.length_append] at this
    have h4 : "tag:".toList.length = 4 := by decide
    omega
  unfold findRevisions
  rw [htok, List.map_cons, List.map_nil, evalToks_atom c _ (hne _ (by decide)) (hne _ (by decide))
    (hne _ (by decide)) (hne _ (by decide))]
  unfold evalAtom
  have hns : startsWith ("tag:" ++ t) "server:" = false := by
    unfold startsWith
    rw [hl]
    rfl
  rw [hns, startsWith_append, dropPrefix_append]
  rfl

end Verif.Repo
