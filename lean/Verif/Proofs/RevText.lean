import Verif.Proofs.RevExpr
import Mathlib.Data.List.TakeWhile
/-!
# The text of an expression is split into its words (`repository.py:381-385`)
-/
set_option linter.dupNamespace false
namespace Verif.Repo
open Verif Verif.Repo.Spec

/-- Only white space. -/
def White (l : List Char) : Prop := ∀ c ∈ l, c.isWhitespace = true

theorem tokenizeAux_skip : ∀ (l rest cur : List Char), NoSep l → l.getLast? ≠ some '.' →
    tokenizeAux (l ++ rest) cur = tokenizeAux rest (cur ++ l)
  | [], rest, cur, _, _ => by simp
  | c :: t, rest, cur, h, hl => by
    unfold NoSep at h
    split at h
    · cases ‹_ :: _ = _›
    · exact h.elim
    · rename_i c' t' h1 heq
      cases heq
      obtain ⟨a1, a2, a3, a4, a5⟩ := h
      have hl' : t.getLast? ≠ some '.' := by
        intro hh; apply hl; rw [List.getLast?_cons, hh]; rfl
      rw [List.cons_append, tokenizeAux, tokenizeAux_skip t _ _ a5 hl']
      · simp
      · exact fun h => a1 h
      · exact fun h => a2 h
      · exact fun h => a3 h
      · exact fun h => a4 h
      · intro t' hc ht
        cases t with
        | nil => rw [hc] at hl; exact hl rfl
        | cons d t =>
          rw [List.cons_append] at ht
          cases ht
          exact h1 t hc rfl

theorem noSep_white : ∀ {l : List Char}, White l → NoSep l
  | [], _ => trivial
  | c :: t, h => by
    have hc := h c (by simp)
    have : c ≠ '.' ∧ c ≠ '(' ∧ c ≠ ')' ∧ c ≠ ',' ∧ c ≠ '&' := by
      refine ⟨?_, ?_, ?_, ?_, ?_⟩ <;> (rintro rfl; exact absurd hc (by decide))
    exact noSep_cons this (noSep_white (fun c hc => h c (by simp [hc])))

theorem last_white {l : List Char} (h : White l) : l.getLast? ≠ some '.' := by
  intro hl
  exact absurd (h _ (List.mem_of_getLast? hl)) (by decide)

theorem dropWhile_white {a b : List Char} (h : White a) :
    (a ++ b).dropWhile Char.isWhitespace = b.dropWhile Char.isWhitespace := by
  induction a with
  | nil => rfl
  | cons c t ih =>
    rw [List.cons_append, List.dropWhile_cons_of_pos (h c (by simp)), ih (fun c hc => h c (by simp [hc]))]

theorem strip_white {l : List Char} (h : White l) : strip l = [] := by
  unfold strip
  rw [List.dropWhile_eq_nil_iff.2 h]; rfl

theorem strip_pad {a w b : List Char} (ha : White a) (hb : White b) (hw : Trimmed w) (hne : w ≠ []) :
    strip (a ++ w ++ b) = w := by
  unfold strip
  rw [List.append_assoc, dropWhile_white ha]
  have h1 : (w ++ b).dropWhile Char.isWhitespace = w ++ b := by
    cases w with
    | nil => exact absurd rfl hne
    | cons c t =>
      rw [List.cons_append, List.dropWhile_cons_of_neg]
      simp [hw.1 c rfl]
  rw [h1, List.reverse_append, dropWhile_white (fun c hc => hb c (List.mem_reverse.1 hc))]
  have h2 : w.reverse.dropWhile Char.isWhitespace = w.reverse := by
    cases hr : w.reverse with
    | nil => rfl
    | cons c t =>
      rw [List.dropWhile_cons_of_neg]
      have : w.getLast? = some c := by rw [← List.head?_reverse, hr]; rfl
      simp [hw.2 c this]
  rw [h2, List.reverse_reverse]

theorem White.append {a b : List Char} (ha : White a) (hb : White b) : White (a ++ b) := by
  intro c hc
  rcases List.mem_append.1 hc with h | h
  · exact ha c h
  · exact hb c h

/-- A selector as it may be written: not empty, no separator in it, no white space around it, no dot at its
end. -/
structure PlainWord (s : String) : Prop where
  nonempty : s.toList ≠ []
  noSep : NoSep s.toList
  trimmed : Trimmed s.toList
  dot : s.toList.getLast? ≠ some '.'

theorem PlainWord.word {s : String} (h : PlainWord s) : Word s := by
  intro hs
  have := h.noSep
  simp only [seps, List.mem_cons, List.not_mem_nil, or_false] at hs
  rcases hs with rfl | rfl | rfl | rfl | rfl
  · exact absurd this.1 (by decide)
  · exact absurd this.2.1 (by decide)
  · exact absurd this.2.2.1 (by decide)
  · exact absurd this.2.2.2.1 (by decide)
  · exact this

/-- A separator comes next, or nothing. -/
def SepHead (ws : List String) : Prop := ∀ w, ws.head? = some w → w ∈ seps

/-- Words with separators between them. -/
def OKWords : List String → Prop
  | [] => True
  | w :: ws => (w ∈ seps ∨ (PlainWord w ∧ SepHead ws)) ∧ OKWords ws

/-- The text of a word list. -/
def wordsText (sp : List Char) (ws : List String) : List Char := ws.flatMap (fun w => sp ++ w.toList ++ sp)

theorem tokenizeAux_sep {w : String} (h : w ∈ seps) (rest cur : List Char) :
    tokenizeAux (w.toList ++ rest) cur = pushTok cur (w :: tokenizeAux rest []) := by
  simp only [seps, List.mem_cons, List.not_mem_nil, or_false] at h
  rcases h with rfl | rfl | rfl | rfl | rfl <;> rfl

theorem tokenizeAux_words {sp : List Char} (hsp : White sp) : ∀ (ws : List String), OKWords ws →
    (∀ cur, White cur → tokenizeAux (wordsText sp ws) cur = ws) ∧
    (∀ cur w, PlainWord w → SepHead ws → (∀ x, White x → strip (cur ++ x) = w.toList) →
      tokenizeAux (wordsText sp ws) cur = w :: ws)
  | [], _ => by
    constructor
    · intro cur hc
      show tokenizeAux [] cur = []
      rw [tokenizeAux, pushTok, strip_white hc, if_pos rfl]
    · intro cur w hw _ hs
      show tokenizeAux [] cur = [w]
      have := hs [] (by intro c hc; simp at hc)
      rw [List.append_nil] at this
      rw [tokenizeAux, pushTok, this, if_neg hw.nonempty, String.ofList_toList]
  | v :: ws, h => by
    obtain ⟨ih1, ih2⟩ := tokenizeAux_words hsp ws h.2
    have htext : wordsText sp (v :: ws) = sp ++ (v.toList ++ (sp ++ wordsText sp ws)) := by
      simp [wordsText]
    have hskip : ∀ cur, tokenizeAux (wordsText sp (v :: ws)) cur =
        tokenizeAux (v.toList ++ (sp ++ wordsText sp ws)) (cur ++ sp) := by
      intro cur
      rw [htext, tokenizeAux_skip _ _ _ (noSep_white hsp) (last_white hsp)]
    have hsepcase : v ∈ seps → ∀ cur, tokenizeAux (wordsText sp (v :: ws)) cur = pushTok (cur ++ sp) (v :: ws) := by
      intro hv cur
      rw [hskip, tokenizeAux_sep hv, tokenizeAux_skip _ _ _ (noSep_white hsp) (last_white hsp), List.nil_append,
        ih1 sp hsp]
    constructor
    · intro cur hc
      rcases h.1 with hv | ⟨hv, hsh⟩
      · rw [hsepcase hv, pushTok, strip_white (hc.append hsp), if_pos rfl]
      · rw [hskip, tokenizeAux_skip _ _ _ hv.noSep hv.dot,
          tokenizeAux_skip _ _ _ (noSep_white hsp) (last_white hsp)]
        apply ih2 _ v hv hsh
        intro x hx
        rw [List.append_assoc _ sp x]
        exact strip_pad (hc.append hsp) (hsp.append hx) hv.trimmed hv.nonempty
    · intro cur w hw hsh hs
      have hv : v ∈ seps := hsh v rfl
      rw [hsepcase hv, pushTok, hs sp hsp, if_neg hw.nonempty, String.ofList_toList]

theorem sepHead_cons {w : String} (ws : List String) (h : w ∈ seps) : SepHead (w :: ws) := by
  intro x hx; cases hx; exact h

theorem fnName_plain (f : Fn) : PlainWord (fnName f) := by
  cases f <;>
  · refine ⟨by decide, ?_, ⟨?_, ?_⟩, by decide⟩
    · repeat' (first | exact trivial | refine noSep_cons (by decide) ?_)
    · intro c hc; revert hc; revert c; decide +kernel
    · intro c hc; revert hc; revert c; decide +kernel

theorem okWords_expr : {l : Lvl} → (e : Expr l) → e.Atoms PlainWord → (rest : List String) → OKWords rest →
    SepHead rest → OKWords (e.words ++ rest)
  | _, .atom s, h, rest, hr, hs => ⟨.inr ⟨h, hs⟩, hr⟩
  | _, .call f e, h, rest, hr, hs => by
    have := okWords_expr e h (")" :: rest) ⟨.inl (by simp [seps]), hr⟩ (sepHead_cons _ (by simp [seps]))
    have e0 : (Expr.call f e).words ++ rest = fnName f :: "(" :: (e.words ++ ")" :: rest) := by simp [Expr.words]
    rw [e0]
    exact ⟨.inr ⟨fnName_plain f, sepHead_cons _ (by simp [seps])⟩, .inl (by simp [seps]), this⟩
  | _, .group e, h, rest, hr, hs => by
    have := okWords_expr e h (")" :: rest) ⟨.inl (by simp [seps]), hr⟩ (sepHead_cons _ (by simp [seps]))
    have e0 : (Expr.group e).words ++ rest = "(" :: (e.words ++ ")" :: rest) := by simp [Expr.words]
    rw [e0]
    exact ⟨.inl (by simp [seps]), this⟩
  | _, .single p, h, rest, hr, hs => okWords_expr p h rest hr hs
  | _, .range a b, h, rest, hr, hs => by
    have e0 : (Expr.range a b).words ++ rest = a.words ++ (".." :: (b.words ++ rest)) := by simp [Expr.words]
    rw [e0]
    exact okWords_expr a h.1 _ ⟨.inl (by simp [seps]), okWords_expr b h.2 rest hr hs⟩ (sepHead_cons _ (by simp [seps]))
  | _, .rangeFrom a, h, rest, hr, hs => by
    have e0 : (Expr.rangeFrom a).words ++ rest = a.words ++ (".." :: rest) := by simp [Expr.words]
    rw [e0]
    exact okWords_expr a h _ ⟨.inl (by simp [seps]), hr⟩ (sepHead_cons _ (by simp [seps]))
  | _, .rangeTo b, h, rest, hr, hs => ⟨.inl (by simp [seps]), okWords_expr b h rest hr hs⟩
  | _, .rangeAll, _, rest, hr, _ => ⟨.inl (by simp [seps]), hr⟩
  | _, .one t, h, rest, hr, hs => okWords_expr t h rest hr hs
  | _, .and a b, h, rest, hr, hs => by
    have e0 : (Expr.and a b).words ++ rest = a.words ++ ("&" :: (b.words ++ rest)) := by simp [Expr.words]
    rw [e0]
    exact okWords_expr a h.1 _ ⟨.inl (by simp [seps]), okWords_expr b h.2 rest hr hs⟩ (sepHead_cons _ (by simp [seps]))
  | _, .all t, h, rest, hr, hs => okWords_expr t h rest hr hs
  | _, .or a b, h, rest, hr, hs => by
    have e0 : (Expr.or a b).words ++ rest = a.words ++ ("," :: (b.words ++ rest)) := by simp [Expr.words]
    rw [e0]
    exact okWords_expr a h.1 _ ⟨.inl (by simp [seps]), okWords_expr b h.2 rest hr hs⟩ (sepHead_cons _ (by simp [seps]))

theorem tokenize_text {l : Lvl} (e : Expr l) (h : e.Atoms PlainWord) {sp : List Char} (hsp : White sp) :
    tokenize (String.ofList (e.text sp)) = e.words := by
  have hok := okWords_expr e h [] trivial (by intro w hw; cases hw)
  rw [List.append_nil] at hok
  unfold tokenize
  rw [String.toList_ofList]
  exact (tokenizeAux_words hsp e.words hok).1 [] (by intro c hc; simp at hc)

theorem Expr.Atoms.mono {P Q : String → Prop} (hPQ : ∀ s, P s → Q s) : {l : Lvl} → (e : Expr l) → e.Atoms P → e.Atoms Q
  | _, .atom s, h => hPQ s h
  | _, .call _ e, h => Expr.Atoms.mono hPQ e h
  | _, .group e, h => Expr.Atoms.mono hPQ e h
  | _, .single e, h => Expr.Atoms.mono hPQ e h
  | _, .range a b, h => ⟨Expr.Atoms.mono hPQ a h.1, Expr.Atoms.mono hPQ b h.2⟩
  | _, .rangeFrom e, h => Expr.Atoms.mono hPQ e h
  | _, .rangeTo e, h => Expr.Atoms.mono hPQ e h
  | _, .rangeAll, _ => trivial
  | _, .one e, h => Expr.Atoms.mono hPQ e h
  | _, .and a b, h => ⟨Expr.Atoms.mono hPQ a h.1, Expr.Atoms.mono hPQ b h.2⟩
  | _, .all e, h => Expr.Atoms.mono hPQ e h
  | _, .or a b, h => ⟨Expr.Atoms.mono hPQ a h.1, Expr.Atoms.mono hPQ b h.2⟩

end Verif.Repo
