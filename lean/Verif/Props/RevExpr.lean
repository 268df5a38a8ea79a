import Verif.Proofs.RevText
import Verif.Proofs.RevRange
import Verif.Props.Find
/-!
# C37 and C38: revision expressions and ranges
-/
set_option linter.dupNamespace false
namespace Verif.Repo
open Verif Verif.Repo.Spec

/-- **C37** Looking up the text of any expression of the grammar, with any white space around its words, gives
exactly its documented meaning, or an error exactly if the meaning is an error.  The meanings of single
selectors and end points (`semOf`) are the subject of `C37_selectors`, C36 and C38. -/
theorem C37_expressions (c : Ctx) (e : Expr .disj) (h : e.Atoms PlainWord) (sp : List Char) (hsp : White sp) :
    (findRevisions c (String.ofList (e.text sp))).toOption = (e.meaning (semOf c)).revs := by
  unfold findRevisions
  rw [tokenize_text e h hsp]
  exact evalToks_meaning c e (Expr.Atoms.mono (fun _ h => h.word) e h)

/-- **C37** Whatever the text, a successful lookup yields only revisions of the history, and none twice. -/
theorem C37_results_from_history (c : Ctx) (hH : c.history.Nodup) (spec : String) (l : List Rev)
    (h : findRevisions c spec = .ok l) : (∀ r ∈ l, r ∈ c.history) ∧ l.Nodup :=
  ⟨fun _ hr => (findRevisions_sel hH h).1 hr, (findRevisions_sel hH h).2⟩

/-- Selectors of more than one revision. -/
inductive Selector
  | tag (t : String) | server (s : String) | trust (t : Trust) | all | clean | local_ | remote

/-- How a selector is written. -/
def Selector.text : Selector → String
  | .tag t => "tag:" ++ t
  | .server s => "server:" ++ s
  | .trust .trusted => "trust:trusted"
  | .trust .distrusted => "trust:distrusted"
  | .trust .verified => "trust:verified"
  | .all => "all"
  | .clean => "clean"
  | .local_ => "local"
  | .remote => "remote"

/-- The revisions a selector stands for. -/
def Selector.selects : Selector → Rev → Bool
  | .tag t, r => decide (t ∈ r.tags)
  | .server s, r => decide (r.server = s)
  | .trust t, r => decide (r.trust = t)
  | .all, _ => true
  | .clean, r => r.stats.any (fun e => decide (e.1 = "duration"))
  | .local_, r => decide (r.server = "")
  | .remote, r => decide (r.server ≠ "")

theorem filter_eq_of {H : List Rev} {p q : Rev → Bool} (h : ∀ r ∈ H, (p r = true ↔ q r = true)) :
    H.filter p = H.filter q := by
  apply List.filter_congr
  intro r hr
  rw [Bool.eq_iff_iff]; exact h r hr

theorem evalAtom_trust (c : Ctx) (t : Trust) :
    evalAtom c (Selector.trust t).text = .ok (c.history.filter (fun r => decide (t = r.trust))) := by
  have h1 : startsWith (Selector.trust t).text "server:" = false := by cases t <;> decide +kernel
  have h2 : startsWith (Selector.trust t).text "tag:" = false := by cases t <;> decide +kernel
  have h3 : startsWith (Selector.trust t).text "trust:" = true := by cases t <;> decide +kernel
  have h4 : parseTrust (dropPrefix (Selector.trust t).text "trust:") = .ok t := by cases t <;> decide +kernel
  unfold evalAtom
  rw [h1, h2, h3, h4]
  rfl

/-- **C37** A selector means the matching revisions of the history, oldest first. -/
theorem C37_selectors (c : Ctx) (s : Selector) :
    (semOf c).select s.text = some (c.history.filter s.selects) := by
  have hts : ∀ s : String, startsWith ("tag:" ++ s) "server:" = false := by
    intro s; unfold startsWith; rw [String.toList_append]; rfl
  have key : ∀ l, evalAtom c s.text = .ok l → l = c.history.filter s.selects →
      (semOf c).select s.text = some (c.history.filter s.selects) := by
    intro l h1 h2
    show (evalAtom c s.text).toOption = _
    rw [h1, h2]; rfl
  cases s with
  | tag t =>
    refine key (c.history.filter (fun r => decide (t ∈ r.tags))) ?_ rfl
    unfold evalAtom Selector.text
    dsimp only
    rw [hts, startsWith_append, dropPrefix_append]
    rfl
  | server x =>
    refine key (c.history.filter (fun r => decide (x = r.server))) ?_ ?_
    · unfold evalAtom Selector.text
      dsimp only
      rw [startsWith_append, dropPrefix_append]
      rfl
    · apply filter_eq_of
      intro r _
      simp only [Selector.selects, decide_eq_true_eq]
      exact eq_comm
  | trust t =>
    refine key _ (evalAtom_trust c t) ?_
    apply filter_eq_of
    intro r _
    simp only [Selector.selects, decide_eq_true_eq]
    exact eq_comm
  | all =>
    refine key c.history rfl ?_
    rw [List.filter_eq_self.2]
    intro r _; rfl
  | clean =>
    refine key (c.history.filter (fun r => r.clean)) rfl ?_
    apply filter_eq_of
    intro r _
    simp only [Selector.selects, Rev.clean, Dict.has, ← Dict.mem_keys_iff, Dict.keys]
    simp
  | local_ =>
    refine key (c.history.filter (fun r => decide ("" = r.server))) rfl ?_
    apply filter_eq_of
    intro r _
    simp only [Selector.selects, decide_eq_true_eq]
    exact eq_comm
  | remote =>
    refine key (c.history.filter (fun r => decide (r ∉ c.history.filter (fun r => decide ("" = r.server))))) rfl ?_
    apply filter_eq_of
    intro r hr
    simp only [Selector.selects, decide_eq_true_eq, List.mem_filter, hr, true_and, ne_eq]
    exact not_congr eq_comm

/-- **C37** Any other selector is looked up as a single revision (C36). -/
theorem C37_single_selector (c : Ctx) (s : String) (h1 : startsWith s "server:" = false)
    (h2 : startsWith s "tag:" = false) (h3 : startsWith s "trust:" = false)
    (h4 : s ∉ ["all", "clean", "local", "remote"]) (h5 : ¬ IsCall (String.ofList (strip s.toList))) :
    (semOf c).select s = ((find c s).toOption).map (fun r => [r]) := by
  rw [← isFirstLastCall_iff, Bool.not_eq_true] at h5
  have hf : findTok c.history s = find c s := by
    unfold findTok find
    dsimp only
    unfold findByFunction
    rw [h5]; rfl
  simp only [List.mem_cons, List.not_mem_nil, or_false, not_or] at h4
  show (evalAtom c s).toOption = _
  unfold evalAtom
  rw [h1, h2, h3]
  simp only [Bool.false_eq_true, if_false, h4.1, h4.2.1, h4.2.2.1, h4.2.2.2, hf]
  cases find c s <;> rfl

/-! ## Ranges -/

/-- The range end point written `s` stands for time `t`: it is a date, or selects a revision of that time.
The exception `oldest` is the part of C38 that does not hold: a date that is exactly the time of the oldest
revision. -/
structure EndPoint (c : Ctx) (s : String) (t : Int) : Prop where
  stands : c.parseDate s = some t ∨ (c.parseDate s = none ∧ ∃ r, findTok c.history s = .ok r ∧ r.ts = t)
  oldest : c.parseDate s = some t → ∀ r, c.history.head? = some r → r.ts ≠ t

theorem EndPoint.marks {c : Ctx} (hs : Strict c.history) {s : String} {t : Int} (h : EndPoint c s t) :
    ∃ i, (semOf c).point s = some i ∧ Marks c.history i t := by
  rcases h.stands with hd | ⟨hd, r, hr, rfl⟩
  · obtain ⟨i, h1, h2, h3⟩ := indexByDate_marks hs hd
    refine ⟨i, ?_, h2⟩
    show (indexByToken c (.str s)).toOption = some i
    unfold indexByToken
    dsimp only
    rw [h1]
    dsimp only
    rw [if_pos]
    · rfl
    · intro h0
      obtain ⟨r, hr, hrt⟩ := h3 h0
      exact h.oldest hd r hr hrt
  · obtain ⟨i, h1, h2⟩ := historyIndex_marks hs (findTok_mem hr)
    refine ⟨i, ?_, h2⟩
    show (indexByToken c (.str s)).toOption = some i
    have hn : indexByDate c s = .ok none := by unfold indexByDate; rw [hd]
    unfold indexByToken
    dsimp only
    rw [hn]
    dsimp only
    rw [hr]
    dsimp only
    rw [h1]; rfl

/-- The range between two selectors as an expression. -/
def rangeExpr (a b : String) : Expr .disj := .all (.one (.range (.atom a) (.atom b)))

/-- **C38** (partial) In a history without equal times, the range between two end points selects exactly the
revisions whose time lies between them, both included, oldest first, in whichever order they are given.
Not covered, because false: a date that equals the time of the oldest revision, and equal times
(`C38_false_oldest_date`, `C38_false_same_time`). -/
theorem C38_range_partial (c : Ctx) (hs : Strict c.history) (a b : String) (ta tb : Int)
    (ha : EndPoint c a ta) (hb : EndPoint c b tb) (pa : PlainWord a) (pb : PlainWord b)
    (sp : List Char) (hsp : White sp) :
    findRevisions c (String.ofList ((rangeExpr a b).text sp)) =
      .ok (c.history.filter (fun r => decide (min ta tb ≤ r.ts ∧ r.ts ≤ max ta tb))) := by
  have h := C37_expressions c (rangeExpr a b) ⟨pa, pb⟩ sp hsp
  obtain ⟨i, i1, i2⟩ := ha.marks hs
  obtain ⟨j, j1, j2⟩ := hb.marks hs
  have hm : ((rangeExpr a b).meaning (semOf c)).revs = some (between c.history i j) := by
    show ((semOf c).point a).bind (fun i => ((semOf c).point b).map (fun j => between c.history i j)) = _
    rw [i1, j1]; rfl
  rw [hm, between_marks i2 j2] at h
  cases hf : findRevisions c (String.ofList ((rangeExpr a b).text sp)) with
  | error e => rw [hf] at h; cases h
  | ok l => rw [hf] at h; cases h; rfl

/-- **C38** (partial) Open ranges: without a first or last end point the range goes on to the oldest or newest
revision. -/
theorem C38_open_range_partial (c : Ctx) (hs : Strict c.history) (hne : c.history ≠ [])
    (hid : ∀ r ∈ c.history, r.uuid ≠ "last" ∧ r.uuid ≠ "latest" ∧ r.uuid ≠ "first")
    (hpd : c.parseDate "first" = none ∧ c.parseDate "last" = none)
    (a : String) (ta : Int) (ha : EndPoint c a ta) (pa : PlainWord a) (sp : List Char) (hsp : White sp)
    (hin : (∃ r ∈ c.history, r.ts ≤ ta) ∧ (∃ r ∈ c.history, ta ≤ r.ts)) :
    findRevisions c (String.ofList ((Expr.all (.one (.rangeFrom (.atom a)))).text sp)) =
        .ok (c.history.filter (fun r => decide (ta ≤ r.ts))) ∧
      findRevisions c (String.ofList ((Expr.all (.one (.rangeTo (.atom a)))).text sp)) =
        .ok (c.history.filter (fun r => decide (r.ts ≤ ta))) := by
  obtain ⟨i, i1, i2⟩ := ha.marks hs
  have hk := C36_keywords c hid hne
  have htok : ∀ s, isFirstLastCall (String.ofList (strip s.toList)) = false → findTok c.history s = find c s := by
    intro s h5
    unfold findTok find
    dsimp only
    unfold findByFunction
    rw [h5]; rfl
  have hlast : EndPoint c "last" (c.history.getLast hne).ts :=
    ⟨.inr ⟨hpd.2, _, by rw [htok "last" (by decide +kernel)]; exact hk.1, rfl⟩, by rw [hpd.2]; intro h; cases h⟩
  have hfirst : EndPoint c "first" (c.history.head hne).ts :=
    ⟨.inr ⟨hpd.1, _, by rw [htok "first" (by decide +kernel)]; exact hk.2.2, rfl⟩, by rw [hpd.1]; intro h; cases h⟩
  obtain ⟨j, j1, j2⟩ := hlast.marks hs
  obtain ⟨k, k1, k2⟩ := hfirst.marks hs
  have hmaxx : ∀ r ∈ c.history, r.ts ≤ (c.history.getLast hne).ts := by
    intro r hr
    obtain ⟨n, hn, rfl⟩ := List.mem_iff_getElem.1 hr
    have h1 : c.history[c.history.length - 1]? = some (c.history.getLast hne) := by
      rw [List.getLast_eq_getElem, List.getElem?_eq_getElem]
    have := (strict_idx hs (List.getElem?_eq_getElem hn) h1).2
    omega
  have hminn : ∀ r ∈ c.history, (c.history.head hne).ts ≤ r.ts := by
    intro r hr
    obtain ⟨n, hn, rfl⟩ := List.mem_iff_getElem.1 hr
    have h1 : c.history[0]? = some (c.history.head hne) := by
      rw [← List.head?_eq_getElem?, List.head?_eq_some_head hne]
    have := (strict_idx hs h1 (List.getElem?_eq_getElem hn)).2
    omega
  have hok : ∀ {spec : String} {l : List Rev}, (findRevisions c spec).toOption = some l → findRevisions c spec = .ok l := by
    intro spec l h
    cases hf : findRevisions c spec with
    | error e => rw [hf] at h; cases h
    | ok x => rw [hf] at h; cases h; rfl
  obtain ⟨⟨r1, hr1, hle1⟩, ⟨r2, hr2, hle2⟩⟩ := hin
  constructor
  · apply hok
    rw [C37_expressions c _ (by exact pa) sp hsp]
    show ((semOf c).point a).bind (fun i => ((semOf c).point "last").map (fun j => between c.history i j)) = _
    rw [i1, j1]
    simp only [Option.bind_some, Option.map_some, Option.some.injEq]
    rw [between_marks i2 j2]
    apply List.filter_congr
    intro r hr
    have := hmaxx r hr
    have := hmaxx r2 hr2
    rw [decide_eq_decide]; omega
  · apply hok
    rw [C37_expressions c _ (by exact pa) sp hsp]
    show ((semOf c).point "first").bind (fun i => ((semOf c).point a).map (fun j => between c.history i j)) = _
    rw [i1, k1]
    simp only [Option.bind_some, Option.map_some, Option.some.injEq]
    rw [between_marks k2 i2]
    apply List.filter_congr
    intro r hr
    have := hminn r hr
    have := hminn r1 hr1
    rw [decide_eq_decide]; omega

/-- The literal text `a..b` of a range. -/
theorem rangeExpr_text (a b : String) : String.ofList ((rangeExpr a b).text []) = a ++ ".." ++ b := by
  apply String.toList_inj.1
  simp [rangeExpr, Expr.text, Expr.words, String.toList_append]

/-! ### Concrete cases -/

/-- Three revisions; `d<n>` is a date. -/
def exDates : Ctx :=
  { history := [mkRev "aXk" 10 {"daily"}, mkRev "bYm" 20 {"weekly"} "srv", mkRev "cZn" 30 {"daily"}]
    parseDate := fun s => if s = "d10" then some 10 else if s = "d15" then some 15 else if s = "d30" then some 30 else none }

theorem plainWord_of {s : String} (h : ∀ c ∈ s.toList, c ≠ '.' ∧ c ≠ '(' ∧ c ≠ ')' ∧ c ≠ ',' ∧ c ≠ '&' ∧ c.isWhitespace = false)
    (hne : s.toList ≠ []) : PlainWord s := by
  refine ⟨hne, ?_, ⟨fun c hc => (h c (List.mem_of_head? hc)).2.2.2.2.2, fun c hc => (h c (List.mem_of_getLast? hc)).2.2.2.2.2⟩,
    fun hl => (h '.' (List.mem_of_getLast? hl)).1 rfl⟩
  have : ∀ l : List Char, (∀ c ∈ l, c ≠ '.' ∧ c ≠ '(' ∧ c ≠ ')' ∧ c ≠ ',' ∧ c ≠ '&' ∧ c.isWhitespace = false) → NoSep l := by
    intro l
    induction l with
    | nil => intro _; trivial
    | cons c t ih =>
      intro hl
      have hc := hl c (by simp)
      exact noSep_cons ⟨hc.1, hc.2.1, hc.2.2.1, hc.2.2.2.1, hc.2.2.2.2.1⟩ (ih (fun c hc => hl c (by simp [hc])))
  exact this _ h

example : Strict exDates.history ∧ EndPoint exDates "d15" 15 ∧ EndPoint exDates "0" 30 := by
  refine ⟨by unfold Strict; decide +kernel, ⟨.inl (by decide +kernel), ?_⟩, ⟨.inr ⟨by decide +kernel, mkRev "cZn" 30 {"daily"}, by decide +kernel, by decide +kernel⟩, ?_⟩⟩
  · intro _ r hr; cases hr; decide +kernel
  · intro h; revert h; decide +kernel

/-- Test: `d15..0` in a history of three. -/
example : (findRevisions exDates "d15..0").toOption.map (List.map Rev.uuid) = some ["bYm", "cZn"] := by
  have h1 : EndPoint exDates "d15" 15 := ⟨.inl (by decide +kernel), fun _ r hr => by cases hr; decide +kernel⟩
  have h2 : EndPoint exDates "0" 30 :=
    ⟨.inr ⟨by decide +kernel, mkRev "cZn" 30 {"daily"}, by decide +kernel, by decide +kernel⟩,
      fun h => by revert h; decide +kernel⟩
  have h := C38_range_partial exDates (by unfold Strict; decide +kernel) "d15" "0" 15 30 h1 h2
    (plainWord_of (by decide +kernel) (by decide)) (plainWord_of (by decide +kernel) (by decide)) [] (by intro c hc; simp at hc)
  rw [rangeExpr_text] at h
  have e : "d15" ++ ".." ++ "0" = "d15..0" := by decide
  rw [e] at h
  rw [h]
  decide +kernel

/-- An expression with nesting: `not(tag:daily), last(reverse(all)) & local`. -/
def exNested : Expr .disj :=
  .or (.one (.single (.call .not (.all (.one (.single (.atom "tag:daily")))))))
    (.all (.and (.single (.call .last (.all (.one (.single (.call .reverse (.all (.one (.single (.atom "all"))))))))))
      (.one (.single (.atom "local")))))

example : exNested.Atoms PlainWord :=
  ⟨plainWord_of (by decide +kernel) (by decide), plainWord_of (by decide +kernel) (by decide),
    plainWord_of (by decide +kernel) (by decide)⟩

example : String.ofList (exNested.text []) = "not(tag:daily),last(reverse(all))&local" := by decide +kernel

/-- Test: its meaning in the three-revision history. -/
example : ((exNested.meaning (semOf exDates)).revs.map (List.map Rev.uuid)) = some ["bYm", "aXk"] := by
  decide +kernel

/-! ### Where C38 is false -/

/-- **C38 is false** for a date that is exactly the time of the oldest revision: the position 0 is taken for
"not a date" and the lookup fails. -/
theorem C38_false_oldest_date : findRevisions exDates "d10..d30" = .error .key := by
  unfold findRevisions
  have : tokenize "d10..d30" = ["d10", "..", "d30"] := by decide +kernel
  rw [this, List.map_cons, List.map_cons, List.map_cons, List.map_nil,
    evalToks_simple (by decide +kernel) (by decide +kernel) (by decide +kernel)]
  decide +kernel

/-- Two revisions of the same time. -/
def exSame : Ctx :=
  { history := [mkRev "aXk" 10 {"daily"}, mkRev "bYm" 20 {"daily"}, mkRev "cZn" 20 {"daily"}]
    parseDate := fun s => if s = "d20" then some 20 else none }

/-- **C38 is false** for a date at which there are two revisions: an assertion fails. -/
theorem C38_false_same_time : findRevisions exSame "d20..last" = .error .assertion := by
  unfold findRevisions
  have : tokenize "d20..last" = ["d20", "..", "last"] := by decide +kernel
  rw [this, List.map_cons, List.map_cons, List.map_cons, List.map_nil,
    evalToks_simple (by decide +kernel) (by decide +kernel) (by decide +kernel)]
  decide +kernel

/-- C37_results_from_history -/
example (l : List Rev) := C37_results_from_history exDates (by decide +kernel) "not(tag:daily),last(reverse(all))&local" l

/-- C37_single_selector: a number, and a word that nothing knows. -/
example := C37_single_selector exDates "0" (by decide +kernel) (by decide +kernel) (by decide +kernel) (by decide +kernel)
  (fun h => absurd ((isFirstLastCall_iff _).2 h) (by decide +kernel))

/-- C38_open_range_partial: the ranges `d15..` and `..d15`. -/
example := C38_open_range_partial exDates (by unfold Strict; decide +kernel) (by decide) (by decide +kernel) (by decide +kernel) "d15" 15
  ⟨.inl (by decide +kernel), fun _ r hr => by cases hr; decide +kernel⟩ (plainWord_of (by decide +kernel) (by decide)) [] (by intro c hc; simp at hc)
  ⟨by decide +kernel, by decide +kernel⟩

end Verif.Repo
