import Verif.Spec.Logging
/-!
# Log entries

C117.
-/
namespace Verif.Logging
open Verif

/-! ## Lines -/

theorem lines_ne_nil : ∀ s, lines s ≠ []
  | [] => by simp [lines]
  | c :: s => by
    simp only [lines]
    split
    · simp
    · split <;> simp

theorem lines_clean : ∀ (a : Text), (∀ c ∈ a, c ≠ '\n') → lines a = [a]
  | [], _ => rfl
  | c :: s, h => by
    simp only [lines]
    rw [if_neg (h c (.head _)), lines_clean s (fun x hx => h x (.tail _ hx))]

theorem lines_cons (c : Char) (s : Text) (h : c ≠ '\n') :
    ∃ l ls, lines s = l :: ls ∧ lines (c :: s) = (c :: l) :: ls := by
  cases hl : lines s with
  | nil => exact absurd hl (lines_ne_nil s)
  | cons l ls => exact ⟨l, ls, rfl, by simp only [lines, if_neg h, hl]⟩

theorem lines_append : ∀ (a b : Text), lines (a ++ '\n' :: b) = lines a ++ lines b
  | [], b => by simp [lines]
  | c :: a, b => by
    by_cases h : c = '\n'
    · subst h
      show lines ('\n' :: (a ++ '\n' :: b)) = lines ('\n' :: a) ++ lines b
      simp only [lines, if_true, lines_append a b, List.cons_append]
    · obtain ⟨l, ls, h1, h2⟩ := lines_cons c a h
      obtain ⟨l', ls', h3, h4⟩ := lines_cons c (a ++ '\n' :: b) h
      rw [lines_append a b, h1] at h3
      simp only [List.cons_append, List.cons.injEq] at h3
      obtain ⟨rfl, rfl⟩ := h3
      show lines (c :: (a ++ '\n' :: b)) = _
      rw [h4, h2]; rfl

/-! ## Removing colour codes -/

theorem remove_skip (symb : Text) : ∀ (k : Nat) (s : Text), remove symb k s = remove symb 0 (s.drop k)
  | 0, s => rfl
  | k + 1, [] => by simp [remove]
  | k + 1, _ :: s => by
    show remove symb k s = remove symb 0 (s.drop k)
    exact remove_skip symb k s

/-- A code. -/
def IsCode (symb : Text) : Prop := ∃ r, symb = Char.ofNat 27 :: r ∧ ∀ c ∈ r, c ≠ '\n' ∧ c ≠ Char.ofNat 27

theorem Colour.isCode (c : Colour) : IsCode c.seq := by
  cases c <;> exact ⟨_, rfl, by decide⟩

theorem remove_cons (symb : Text) (c : Char) (s : Text) : remove symb 0 (c :: s) =
    if symb.isPrefixOf (c :: s) then remove symb (symb.length - 1) s else c :: remove symb 0 s := rfl

theorem remove_plain {symb : Text} (h : IsCode symb) : ∀ (a b : Text), (∀ c ∈ a, c ≠ Char.ofNat 27) →
    remove symb 0 (a ++ b) = a ++ remove symb 0 b
  | [], b, _ => rfl
  | c :: a, b, ha => by
    have h0 := h
    obtain ⟨r, rfl, _⟩ := h
    have hc := ha c (.head _)
    rw [List.cons_append, remove_cons, if_neg, remove_plain h0 a b (fun x hx => ha x (.tail _ hx))]
    · rfl
    · simp only [List.isPrefixOf, Bool.and_eq_true, beq_iff_eq, not_and]
      intro he
      exact absurd he.symm hc

theorem remove_newline {symb : Text} (h : IsCode symb) : ∀ (n : Nat) (a b : Text), a.length ≤ n →
    remove symb 0 (a ++ '\n' :: b) = remove symb 0 a ++ '\n' :: remove symb 0 b
  | _, [], b, _ => remove_plain h ['\n'] b (by decide)
  | 0, c :: a, b, hn => by simp at hn
  | n + 1, c :: a, b, hn => by
    have hnl : '\n' ∉ symb := by
      obtain ⟨r, rfl, hr⟩ := h
      intro hm
      rcases List.mem_cons.1 hm with hm | hm
      · exact absurd hm (by decide)
      · exact (hr _ hm).1 rfl
    by_cases hp : symb <+: c :: a
    · have hp' : symb <+: c :: (a ++ '\n' :: b) := hp.trans ⟨'\n' :: b, rfl⟩
      have hlen : symb.length - 1 ≤ a.length := by have := hp.length_le; simp only [List.length_cons] at this; omega
      rw [List.cons_append, remove_cons, remove_cons, if_pos (List.isPrefixOf_iff_prefix.2 hp'),
        if_pos (List.isPrefixOf_iff_prefix.2 hp), remove_skip, remove_skip _ _ a, List.drop_append_of_le_length hlen,
        remove_newline h n (a.drop _) b (by simp only [List.length_cons, List.length_drop] at *; omega)]
    · have hp' : ¬ symb <+: c :: (a ++ '\n' :: b) := by
        intro hc
        rcases List.prefix_or_prefix_of_prefix hc (⟨'\n' :: b, rfl⟩ : c :: a <+: c :: (a ++ '\n' :: b)) with hx | ⟨t, rfl⟩
        · exact hp hx
        · cases t with
          | nil => exact hp (by simp)
          | cons x t =>
            obtain ⟨u, hu⟩ := hc
            have : x = '\n' := by simp at hu; exact hu.1
            exact hnl (by rw [← this]; simp)
      rw [List.cons_append, remove_cons, remove_cons, if_neg (fun hx => hp' (List.isPrefixOf_iff_prefix.1 hx)),
        if_neg (fun hx => hp (List.isPrefixOf_iff_prefix.1 hx)),
        remove_newline h n a b (by simp only [List.length_cons] at *; omega)]
      rfl

theorem mem_remove {symb : Text} {x : Char} : ∀ (k : Nat) (s : Text), x ∈ remove symb k s → x ∈ s
  | _, [], h => by cases ‹Nat› <;> exact h
  | k + 1, _ :: s, h => .tail _ (mem_remove k s h)
  | 0, c :: s, h => by
    rw [remove_cons] at h
    split at h
    · exact .tail _ (mem_remove _ s h)
    · rcases List.mem_cons.1 h with rfl | h
      · exact .head _
      · exact .tail _ (mem_remove _ s h)

theorem lines_remove {symb : Text} (h : IsCode symb) : ∀ (n : Nat) (s : Text), s.length ≤ n →
    lines (remove symb 0 s) = (lines s).map (remove symb 0) := by
  intro n
  induction n with
  | zero =>
    intro s hn
    rw [List.eq_nil_of_length_eq_zero (Nat.le_zero.1 hn)]
    rfl
  | succ n ih =>
    intro s hn
    by_cases hm : '\n' ∈ s
    · obtain ⟨a, b, rfl, ha⟩ := List.eq_append_cons_of_mem hm
      have ha' : ∀ c ∈ a, c ≠ '\n' := fun c hc he => ha (he ▸ hc)
      rw [remove_newline h _ a b (Nat.le_refl _), lines_append, lines_append, List.map_append,
        ih b (by simp only [List.length_append, List.length_cons] at hn; omega), lines_clean a ha',
        lines_clean _ (fun c hc => ha' c (mem_remove _ _ hc))]
      rfl
    · have hs : ∀ c ∈ s, c ≠ '\n' := fun c hc he => hm (he ▸ hc)
      rw [lines_clean s hs, lines_clean _ (fun c hc => hs c (mem_remove _ _ hc))]
      rfl

/-! ## What goes to the file -/

theorem foldl_lines : ∀ (cs : List Colour) (s : Text),
    lines (cs.foldl (fun l c => remove c.seq 0 l) s) = (lines s).map (fun l => cs.foldl (fun l c => remove c.seq 0 l) l)
  | [], s => by simp
  | c :: cs, s => by
    rw [List.foldl_cons, foldl_lines cs, lines_remove c.isCode _ s (Nat.le_refl _), List.map_map]
    rfl

theorem lines_plain (tty : Bool) (s : Text) : lines (plain tty s) = (lines s).map (plain tty) := by
  cases tty with
  | false => exact (List.map_id (lines s)).symm
  | true => exact foldl_lines allColours s

theorem foldl_plain : ∀ (cs : List Colour) (a b : Text), (∀ c ∈ a, c ≠ Char.ofNat 27) →
    cs.foldl (fun l c => remove c.seq 0 l) (a ++ b) = a ++ cs.foldl (fun l c => remove c.seq 0 l) b
  | [], _, _, _ => rfl
  | c :: cs, a, b, h => by
    rw [List.foldl_cons, List.foldl_cons, remove_plain c.isCode a b h, foldl_plain cs _ _ h]

theorem plain_append (tty : Bool) (a b : Text) (h : ∀ c ∈ a, c ≠ Char.ofNat 27) : plain tty (a ++ b) = a ++ plain tty b := by
  cases tty with
  | false => rfl
  | true => exact foldl_plain allColours a b h

theorem plain_nil (tty : Bool) : plain tty [] = [] := by cases tty <;> rfl

theorem plain_clean (tty : Bool) (a : Text) (h : ∀ c ∈ a, c ≠ Char.ofNat 27) : plain tty a = a := by
  have := plain_append tty a [] h
  rwa [List.append_nil, plain_nil, List.append_nil] at this

theorem remove_other (c d : Colour) (hne : c ≠ d) (b : Text) : remove c.seq 0 (d.seq ++ b) = d.seq ++ remove c.seq 0 b := by
  obtain ⟨r, hr, hr'⟩ := d.isCode
  rw [hr, List.cons_append, remove_cons, if_neg, remove_plain c.isCode r b (fun x hx => (hr' x hx).2)]
  · rfl
  · rw [← List.cons_append, ← hr]
    cases c <;> cases d <;> first | exact absurd rfl hne | (simp [Colour.seq, code, List.isPrefixOf])

theorem remove_same (c : Colour) (b : Text) : remove c.seq 0 (c.seq ++ b) = remove c.seq 0 b := by
  obtain ⟨r, hr, hr'⟩ := c.isCode
  have : c.seq.isPrefixOf (c.seq ++ b) = true := List.isPrefixOf_iff_prefix.2 ⟨b, rfl⟩
  rw [hr] at this ⊢
  rw [List.cons_append] at this ⊢
  rw [remove_cons, if_pos this, remove_skip]
  simp

theorem foldl_colour (d : Colour) (b : Text) : ∀ (cs : List Colour), cs.foldl (fun l c => remove c.seq 0 l) (d.seq ++ b) =
    if d ∈ cs then cs.foldl (fun l c => remove c.seq 0 l) b else d.seq ++ cs.foldl (fun l c => remove c.seq 0 l) b := by
  intro cs
  induction cs generalizing b with
  | nil => rfl
  | cons c cs ih =>
    rw [List.foldl_cons, List.foldl_cons]
    by_cases hc : c = d
    · subst hc
      rw [remove_same, if_pos (.head _)]
    · rw [remove_other c d hc, ih]
      simp only [List.mem_cons, show ¬ d = c from fun h => hc h.symm, false_or]

theorem plain_col (tty : Bool) (d : Colour) (b : Text) : plain tty (col tty d ++ b) = plain tty b := by
  cases tty with
  | false => rfl
  | true =>
    show allColours.foldl (fun l c => remove c.seq 0 l) (d.seq ++ b) = allColours.foldl (fun l c => remove c.seq 0 l) b
    rw [foldl_colour, if_pos (by cases d <;> decide)]

/-! ## Details -/

theorem isDetail_iff (l : Text) : isDetail l = true ↔ l = [] ∨ l = List.replicate 79 '=' ∨ ∃ m ∈ marks, m <+: l := by
  simp only [isDetail, Bool.or_eq_true, beq_iff_eq, List.any_eq_true, List.isPrefixOf_iff_prefix, or_assoc]

theorem marks_plain : ∀ m ∈ marks, ∀ c ∈ m, c ≠ '\n' ∧ c ≠ Char.ofNat 27 := by decide

theorem isDetail_plain (tty : Bool) (l : Text) (h : isDetail l = true) : isDetail (plain tty l) = true := by
  rw [isDetail_iff] at h ⊢
  rcases h with rfl | rfl | ⟨m, hm, t, rfl⟩
  · exact .inl (plain_nil tty)
  · exact .inr (.inl (plain_clean tty _ (by decide)))
  · exact .inr (.inr ⟨m, hm, plain tty t, (plain_append tty m t (fun c hc => (marks_plain m hm c hc).2)).symm⟩)

/-- Every line is a detail. -/
def Details (s : Text) : Prop := ∀ l ∈ lines s, isDetail l = true

theorem Details.plain {s : Text} (h : Details s) (tty : Bool) : Details (plain tty s) := by
  intro l hl
  rw [lines_plain, List.mem_map] at hl
  obtain ⟨l', hl', rfl⟩ := hl
  exact isDetail_plain tty l' (h l' hl')

theorem lines_afterNewlines (m : Text) (hm : ∀ c ∈ m, c ≠ '\n') : ∀ (s x : Text), (∀ c ∈ x, c ≠ '\n') →
    ∃ l ls, lines s = l :: ls ∧ lines (x ++ afterNewlines m s) = (x ++ l) :: ls.map (m ++ ·)
  | [], x, hx => ⟨[], [], rfl, by simp only [afterNewlines, List.append_nil]; exact lines_clean x hx⟩
  | c :: s, x, hx => by
    by_cases hc : c = '\n'
    · subst hc
      obtain ⟨l, ls, h1, h2⟩ := lines_afterNewlines m hm s m hm
      refine ⟨[], l :: ls, by simp only [lines, if_true, h1], ?_⟩
      simp only [afterNewlines, if_true]
      rw [lines_append, lines_clean x hx, h2]
      simp
    · obtain ⟨l, ls, h1, h2⟩ := lines_afterNewlines m hm s (x ++ [c]) (by
        intro y hy
        rcases List.mem_append.1 hy with hy | hy
        · exact hx y hy
        · rw [List.mem_singleton.1 hy]; exact hc)
      refine ⟨c :: l, ls, ?_, ?_⟩
      · obtain ⟨l', ls', h3, h4⟩ := lines_cons c s hc
        rw [h1] at h3
        cases h3
        exact h4
      · simp only [afterNewlines, if_neg hc]
        rw [List.append_assoc] at h2
        rw [show x ++ c :: afterNewlines m s = x ++ ([c] ++ afterNewlines m s) from rfl, h2]
        simp

theorem lines_prefixed (p : Text) (hp : ∀ c ∈ p, c ≠ '\n') (s : Text) :
    lines (prefixed p s) = (lines s).map ((p ++ ['>', '\t']) ++ ·) := by
  have hm : ∀ c ∈ p ++ ['>', '\t'], c ≠ '\n' := by
    intro c hc
    rcases List.mem_append.1 hc with hc' | hc'
    · exact hp c hc'
    · clear hc; revert c; decide
  obtain ⟨l, ls, h1, h2⟩ := lines_afterNewlines _ hm s _ hm
  rw [prefixed, h2, h1]
  rfl

theorem prefixed_details (p s : Text) (hp : p ++ ['>', '\t'] ∈ marks) : Details (prefixed p s) := by
  intro l hl
  rw [lines_prefixed p (fun c hc => (marks_plain _ hp c (List.mem_append_left _ hc)).1), List.mem_map] at hl
  obtain ⟨l', _, rfl⟩ := hl
  exact (isDetail_iff _).2 (.inr (.inr ⟨_, hp, l', rfl⟩))

theorem afterNewlines_append (m : Text) : ∀ (s w : Text), (∀ c ∈ w, c ≠ '\n') → afterNewlines m (s ++ w) = afterNewlines m s ++ w
  | [], w, h => by
    induction w with
    | nil => rfl
    | cons c w ih =>
      simp only [List.nil_append, afterNewlines] at *
      rw [if_neg (h c (.head _)), ih (fun x hx => h x (.tail _ hx))]
  | c :: s, w, h => by
    simp only [List.cons_append, afterNewlines, afterNewlines_append m s w h]
    split <;> simp

theorem prefixed_append (p s w : Text) (h : ∀ c ∈ w, c ≠ '\n') : prefixed p s ++ w = prefixed p (s ++ w) := by
  simp only [prefixed, afterNewlines_append _ s w h, List.append_assoc]

theorem col_noNewline (tty : Bool) (c : Colour) : ∀ x ∈ col tty c, x ≠ '\n' := by
  cases tty
  · intro x hx; cases hx
  · cases c <;> (unfold col; decide)

/-- A piece that starts a new line, after which come details only. -/
def Tail (s : Text) : Prop := ∃ u, s = '\n' :: u ∧ Details u

theorem plain_newline (tty : Bool) (u : Text) : plain tty ('\n' :: u) = '\n' :: plain tty u :=
  plain_append tty ['\n'] u (by decide)

theorem Tail.plain {s : Text} (h : Tail s) (tty : Bool) : Tail (plain tty s) := by
  obtain ⟨u, rfl, hu⟩ := h
  exact ⟨_, plain_newline tty u, hu.plain tty⟩

theorem block_tail (tty : Bool) (p s : Text) (hp : p ++ ['>', '\t'] ∈ marks) : Tail (block tty [] p s) := by
  refine ⟨_, rfl, ?_⟩
  show Details (prefixed p _ ++ col tty .resetAll)
  rw [prefixed_append p _ _ (col_noNewline tty _)]
  exact prefixed_details p _ hp

theorem block_dim_tail (tty : Bool) (p s : Text) (hp : p ++ ['>', '\t'] ∈ marks) :
    Tail (plain tty (block tty (col tty .dim) p s)) := by
  have h1 : block tty (col tty .dim) p s = '\n' :: (col tty .dim ++ (prefixed p (['\n'] ++ s ++ ['\n']) ++ col tty .resetAll)) := by
    simp [block]
  rw [h1, plain_newline, plain_col]
  refine ⟨_, rfl, ?_⟩
  rw [prefixed_append p _ _ (col_noNewline tty _)]
  exact (prefixed_details p _ hp).plain tty

theorem lines_tails : ∀ (ts : List Text) (a : Text), (∀ t ∈ ts, Tail t) →
    ∃ ls, lines (a ++ ts.flatten) = lines a ++ ls ∧ ∀ l ∈ ls, isDetail l = true
  | [], a, _ => ⟨[], by simp, by simp⟩
  | t :: ts, a, h => by
    obtain ⟨u, rfl, hu⟩ := h t (.head _)
    obtain ⟨ls, h1, h2⟩ := lines_tails ts u (fun x hx => h x (.tail _ hx))
    refine ⟨lines u ++ ls, ?_, ?_⟩
    · rw [List.flatten_cons, List.cons_append, lines_append, h1]
    · intro l hl
      rcases List.mem_append.1 hl with hl | hl
      · exact hu l hl
      · exact h2 l hl

/-! ## The first line -/

theorem Clean.append {a b : Text} (ha : Clean a) (hb : Clean b) : Clean (a ++ b) := by
  intro c hc
  rcases List.mem_append.1 hc with h | h
  · exact ha c h
  · exact hb c h

theorem Clean.ljust {a : Text} (ha : Clean a) (n : Nat) : Clean (ljust n a) :=
  ha.append (by intro c hc; rw [(List.mem_replicate.1 hc).2]; decide)

theorem Clean.noEsc {a : Text} (ha : Clean a) : ∀ c ∈ a, c ≠ Char.ofNat 27 := fun c hc => (ha c hc).2

theorem clean_nil : Clean [] := fun _ h => nomatch h

theorem Proper.job {e : Event} (h : Proper e) : Clean e.job := by
  unfold Event.job
  split
  · exact h.jobName
  · rename_i t ht
    split
    · exact h.jobName
    · exact h.jobName.append ((Clean.append (a := ['[']) (by unfold Clean; decide) (h.subTaskid t ht)).append (by unfold Clean; decide))

theorem Proper.name {e : Event} (h : Proper e) : Clean e.name := by
  unfold Event.name
  split
  · exact h.event
  · exact (h.subsystem.append (by unfold Clean; decide)).append h.event

theorem plain_coloured (tty : Bool) (c : Colour) (s b : Text) (hs : Clean s) :
    plain tty (col tty c ++ s ++ col tty .resetAll ++ b) = s ++ plain tty b := by
  rw [List.append_assoc, List.append_assoc, plain_col, plain_append tty s _ hs.noEsc, plain_col]

/-- The pieces of the first line (`logging.py:201-273`). -/
def heads (tty : Bool) (e : Event) (lvl : List Text) : List Text :=
  opt (fun s => col tty .dim ++ s ++ col tty .resetAll ++ [' ']) e.ts
    ++ opt (fun s => col tty .dim ++ s ++ col tty .resetAll ++ [' ']) e.taskid
    ++ lvl
    ++ (if e.job = [] then [] else [ljust 20 e.job ++ [' ']])
    ++ [col tty .bright ++ ljust 35 e.name ++ col tty .resetAll ++ [' ']]
    ++ opt (fun s => ['['] ++ col tty .blue ++ col tty .bright ++ s ++ col tty .resetAll ++ [']', ' ']) e.logger
    ++ [joined (e.rest.map (keyValue tty))]

/-- The other pieces (`logging.py:275-295`). -/
def tails (tty : Bool) (e : Event) (tb : Option Text) : List Text :=
  opt (block tty [] []) e.fmtMsg
    ++ opt (block tty [] []) e.output
    ++ opt (block tty (col tty .dim) "out".toList) e.stdout
    ++ opt (block tty [] "err".toList) e.stderr
    ++ stackPart tb e.stack
    ++ opt (fun s => ['\n'] ++ prefixed "exception".toList s) tb

theorem pieces_ok {tty : Bool} {e : Event} {ps : List Text} (h : pieces tty e = .ok ps) :
    ∃ lvl tb, levelPart tty e.level = .ok lvl ∧ e.shownTraceback = .ok tb ∧ ps = heads tty e lvl ++ tails tty e tb := by
  unfold pieces at h
  split at h
  · cases h
  · cases h
  · rename_i lvl tb h1 h2
    refine ⟨lvl, tb, h1, h2, ?_⟩
    cases h
    simp only [heads, tails, List.append_assoc]

theorem level_plain {tty : Bool} {l : Option String} {lvl : List Text} (h : levelPart tty l = .ok lvl) :
    (lvl.map (plain tty)).flatten = field (l.map (fun l => (l.toList.take 1).map Char.toUpper)) ∧
    Clean (field (l.map (fun l => (l.toList.take 1).map Char.toUpper))) := by
  cases l with
  | none => cases h; exact ⟨rfl, clean_nil⟩
  | some l =>
    simp only [levelPart] at h
    have key : ∀ c d : Colour, Clean ((l.toList.take 1).map Char.toUpper) →
        plain tty (col tty c ++ col tty d ++ (l.toList.take 1).map Char.toUpper ++ col tty .resetAll ++ [' ']) =
          (l.toList.take 1).map Char.toUpper ++ [' '] := by
      intro c d hcl
      rw [show col tty c ++ col tty d ++ (l.toList.take 1).map Char.toUpper ++ col tty .resetAll ++ [' '] =
        col tty c ++ (col tty d ++ (l.toList.take 1).map Char.toUpper ++ col tty .resetAll ++ [' ']) by simp [List.append_assoc],
        plain_col, plain_coloured _ _ _ _ hcl, plain_clean _ _ (by decide)]
    split at h
    · cases h
    · rename_i c hc
      cases h
      simp only [levelColour, List.mem_cons, List.not_mem_nil, or_false] at hc
      have hcl : Clean ((l.toList.take 1).map Char.toUpper) := by
        unfold Clean
        split at hc
        · rename_i hl; rcases hl with rfl | rfl | rfl | rfl <;> decide
        · split at hc
          · rename_i hl; rcases hl with rfl | rfl <;> decide
          · split at hc
            · rename_i hl; rcases hl with rfl | rfl | rfl <;> decide
            · split at hc
              · rename_i hl; subst hl; decide
              · cases hc
      refine ⟨?_, hcl.append (by unfold Clean; decide)⟩
      simp only [Option.map, field, List.map_cons, List.map_nil, List.flatten_cons, List.flatten_nil, List.append_nil]
      split at hc
      · cases hc; exact key _ _ hcl
      · split at hc
        · cases hc; exact key _ _ hcl
        · split at hc
          · cases hc; exact key _ _ hcl
          · split at hc
            · cases hc; exact key _ _ hcl
            · cases hc

theorem pairs_plain (tty : Bool) : ∀ (l : List (Text × Text)), (∀ kv ∈ l, Clean kv.1 ∧ Clean kv.2) → ∀ b,
    plain tty (joined (l.map (keyValue tty)) ++ b) = pairs l ++ plain tty b
  | [], _, b => rfl
  | (k, v) :: l, h, b => by
    have hk := (h (k, v) (.head _)).1
    have hv := (h (k, v) (.head _)).2
    have one : ∀ x, plain tty (keyValue tty (k, v) ++ x) = k ++ ['='] ++ v ++ plain tty x := by
      intro x
      rw [show keyValue tty (k, v) ++ x = col tty .cyan ++ k ++ col tty .resetAll ++ (['='] ++ (col tty .magenta ++ v ++ col tty .resetAll ++ x))
        by simp [keyValue, List.append_assoc], plain_coloured _ _ _ _ hk, plain_append tty ['='] _ (by decide),
        plain_coloured _ _ _ _ hv]
      simp [List.append_assoc]
    cases l with
    | nil =>
      show plain tty (keyValue tty (k, v) ++ b) = k ++ ['='] ++ v ++ plain tty b
      exact one b
    | cons kv l =>
      have ih := pairs_plain tty (kv :: l) (fun x hx => h x (.tail _ hx)) b
      show plain tty (keyValue tty (k, v) ++ [' '] ++ joined ((kv :: l).map (keyValue tty)) ++ b) = _
      rw [List.append_assoc, List.append_assoc, one, plain_append tty [' '] _ (by decide), ih]
      simp [pairs, List.append_assoc]

theorem pairs_clean : ∀ (l : List (Text × Text)), (∀ kv ∈ l, Clean kv.1 ∧ Clean kv.2) → Clean (pairs l)
  | [], _ => clean_nil
  | [(k, v)], h => ((h (k, v) (.head _)).1.append (by unfold Clean; decide)).append (h (k, v) (.head _)).2
  | (k, v) :: kv :: l, h => (((((h (k, v) (.head _)).1.append (by unfold Clean; decide)).append (h (k, v) (.head _)).2).append
      (by unfold Clean; decide)).append (pairs_clean (kv :: l) (fun x hx => h x (.tail _ hx))))

theorem field_clean {o : Option Text} (h : ∀ s, o = some s → Clean s) : Clean (field o) := by
  cases o with
  | none => exact clean_nil
  | some s => exact (h s rfl).append (by unfold Clean; decide)

theorem opt_plain (tty : Bool) (o : Option Text) (h : ∀ s, o = some s → Clean s) :
    ((opt (fun s => col tty .dim ++ s ++ col tty .resetAll ++ [' ']) o).map (plain tty)).flatten = field o := by
  cases o with
  | none => rfl
  | some s =>
    simp only [opt, field, List.map_cons, List.map_nil, List.flatten_cons, List.flatten_nil, List.append_nil]
    rw [plain_coloured _ _ _ _ (h s rfl), plain_clean _ _ (by decide)]

theorem Proper.ts' {e : Event} (h : Proper e) : ∀ s, e.ts = some s → Clean s := by
  intro s hs
  obtain ⟨d, t, h1, _, h2⟩ := h.ts
  rw [h1] at hs
  cases hs
  exact h2

theorem heads_plain {tty : Bool} {e : Event} {lvl : List Text} (h : Proper e) (hl : levelPart tty e.level = .ok lvl) :
    ((heads tty e lvl).map (plain tty)).flatten = headline e := by
  have h1 := opt_plain tty e.ts h.ts'
  have h2 := opt_plain tty e.taskid h.taskid
  have h3 := (level_plain hl).1
  have h4 : ((if e.job = [] then ([] : List Text) else [ljust 20 e.job ++ [' ']]).map (plain tty)).flatten =
      if e.job = [] then [] else padded 20 e.job ++ [' '] := by
    split
    · rfl
    · have : plain tty (ljust 20 e.job ++ [' ']) = padded 20 e.job ++ [' '] := by
        rw [plain_append tty _ _ (h.job.ljust 20).noEsc, plain_clean _ _ (by decide)]; rfl
      simp [this]
  have h5 : plain tty (col tty .bright ++ ljust 35 e.name ++ col tty .resetAll ++ [' ']) = padded 35 e.name ++ [' '] := by
    rw [plain_coloured _ _ _ _ (h.name.ljust 35), plain_clean _ _ (by decide)]; rfl
  have h6 : ((opt (fun s => ['['] ++ col tty .blue ++ col tty .bright ++ s ++ col tty .resetAll ++ [']', ' ']) e.logger).map
      (plain tty)).flatten = field (e.logger.map (fun s => ['['] ++ s ++ [']'])) := by
    cases hlg : e.logger with
    | none => rfl
    | some s =>
      simp only [opt, field, Option.map, List.map_cons, List.map_nil, List.flatten_cons, List.flatten_nil, List.append_nil]
      rw [show ['['] ++ col tty .blue ++ col tty .bright ++ s ++ col tty .resetAll ++ [']', ' '] =
        ['['] ++ (col tty .blue ++ (col tty .bright ++ s ++ col tty .resetAll ++ [']', ' '])) by simp [List.append_assoc],
        plain_append tty ['['] _ (by decide), plain_col, plain_coloured _ _ _ _ (h.logger s hlg), plain_clean _ _ (by decide)]
      simp
  have h7 := pairs_plain tty e.rest h.rest []
  rw [List.append_nil, plain_nil, List.append_nil] at h7
  simp only [heads, List.map_append, List.flatten_append, h1, h2, h3, h4, h6]
  simp only [List.map_cons, List.map_nil, List.flatten_cons, List.flatten_nil, List.append_nil, h5, h7]
  rfl

theorem headline_clean {tty : Bool} {e : Event} {lvl : List Text} (h : Proper e) (hl : levelPart tty e.level = .ok lvl) :
    Clean (headline e) := by
  unfold headline
  refine (((((((field_clean h.ts').append (field_clean h.taskid)).append (level_plain hl).2).append ?_).append ?_).append ?_).append
    (pairs_clean _ h.rest))
  · split
    · exact clean_nil
    · exact (h.job.ljust 20).append (by unfold Clean; decide)
  · exact (h.name.ljust 35).append (by unfold Clean; decide)
  · refine field_clean ?_
    intro s hs
    cases hlg : e.logger with
    | none => rw [hlg] at hs; cases hs
    | some x =>
      rw [hlg] at hs
      cases hs
      exact (Clean.append (a := ['[']) (by unfold Clean; decide) (h.logger x hlg)).append (by unfold Clean; decide)

theorem headline_entry {e : Event} (h : Proper e) : isDetail (headline e) = false := by
  obtain ⟨d, t, h1, h2, _⟩ := h.ts
  have : ∃ r, headline e = d :: r := by unfold headline; rw [h1]; exact ⟨_, rfl⟩
  obtain ⟨r, hr⟩ := this
  cases hd : isDetail (headline e) with
  | false => rfl
  | true =>
    exfalso
    rw [hr, isDetail_iff] at hd
    rcases hd with hd | hd | ⟨m, hm, x, hx⟩
    · cases hd
    · have : d = '=' := by
        rw [show List.replicate 79 '=' = '=' :: List.replicate 78 '=' from rfl] at hd
        exact (List.cons.inj hd).1
      subst this; exact absurd h2 (by decide)
    · simp only [marks, List.mem_cons, List.not_mem_nil, or_false] at hm
      rcases hm with rfl | rfl | rfl | rfl | rfl <;>
        (have hq := (List.cons.inj hx).1; subst hq; exact absurd h2 (by decide))

theorem tails_tail (tty : Bool) (e : Event) (tb : Option Text) : ∀ t ∈ (tails tty e tb).map (plain tty), Tail t := by
  intro t ht
  obtain ⟨x, hx, rfl⟩ := List.mem_map.1 ht
  simp only [tails, List.mem_append] at hx
  have hopt : ∀ (f : Text → Text) (o : Option Text), x ∈ opt f o → ∃ s, x = f s := by
    intro f o h
    cases o with
    | none => cases h
    | some s => exact ⟨s, List.mem_singleton.1 h⟩
  rcases hx with ((((hx | hx) | hx) | hx) | hx) | hx
  · obtain ⟨s, rfl⟩ := hopt _ _ hx; exact (block_tail tty [] s (by decide)).plain tty
  · obtain ⟨s, rfl⟩ := hopt _ _ hx; exact (block_tail tty [] s (by decide)).plain tty
  · obtain ⟨s, rfl⟩ := hopt _ _ hx; exact block_dim_tail tty _ s (by decide)
  · obtain ⟨s, rfl⟩ := hopt _ _ hx; exact (block_tail tty _ s (by decide)).plain tty
  · cases hst : e.stack with
    | none => rw [hst] at hx; cases hx
    | some s =>
      rw [hst] at hx
      simp only [stackPart, List.mem_append] at hx
      rcases hx with hx | hx
      · rw [List.mem_singleton.1 hx]
        exact Tail.plain ⟨_, rfl, prefixed_details _ _ (by decide)⟩ tty
      · split at hx
        · rw [List.mem_singleton.1 hx]
          exact Tail.plain ⟨_, rfl, by unfold Details; decide⟩ tty
        · cases hx
  · obtain ⟨s, rfl⟩ := hopt _ _ hx
    exact Tail.plain ⟨_, rfl, prefixed_details _ _ (by decide)⟩ tty

/-! ## C117 -/

theorem render_ok {tty : Bool} {n : Nat} {e : Event} {c f : Text} (h : render tty n e = .ok (c, f)) :
    ∃ lvl tb, levelPart tty e.level = .ok lvl ∧ e.shownTraceback = .ok tb ∧ e.method.toLower ∈ levels ∧
      f = ((heads tty e lvl ++ tails tty e tb).map (plain tty)).flatten ∧
      c = if levels.idxOf e.method.toLower > n then [] else (heads tty e lvl ++ tails tty e tb).flatten := by
  unfold render at h
  split at h
  · cases h
  · rename_i ps hps
    obtain ⟨lvl, tb, h1, h2, rfl⟩ := pieces_ok hps
    split at h
    · cases h
    · rename_i i hi
      unfold levelIndex at hi
      split at hi
      · rename_i hm
        cases hi
        cases h
        exact ⟨lvl, tb, h1, h2, hm, rfl, rfl⟩
      · cases hi

theorem lines_entry {tty : Bool} {n : Nat} {e : Event} {c f : Text} (h : Proper e) (hr : render tty n e = .ok (c, f)) :
    ∃ ls, lines f = headline e :: ls ∧ ∀ l ∈ ls, isDetail l = true := by
  obtain ⟨lvl, tb, h1, _, _, rfl, _⟩ := render_ok hr
  rw [List.map_append, List.flatten_append, heads_plain h h1]
  obtain ⟨ls, h2, h3⟩ := lines_tails _ (headline e) (tails_tail tty e tb)
  rw [lines_clean _ (fun c hc => (headline_clean h h1 c hc).1)] at h2
  exact ⟨ls, h2, h3⟩

theorem entries_of {f : Text} {l : Text} {ls : List Text} (h : lines f = l :: ls) (hl : isDetail l = false)
    (hls : ∀ x ∈ ls, isDetail x = true) : entries f = [l] := by
  unfold entries
  rw [h, List.filter_cons_of_pos (by simp [hl])]
  rw [List.filter_eq_nil_iff.2]
  intro x hx
  simp [hls x hx]

theorem entries_append (a b : Text) : entries (a ++ '\n' :: b) = entries a ++ entries b := by
  unfold entries
  rw [lines_append, List.filter_append]

/-- A file to which one can append lines. -/
def Ended (f : Text) : Prop := f = [] ∨ ∃ g, f = g ++ ['\n']

theorem entries_ended {f : Text} (h : Ended f) (t : Text) : entries (f ++ t ++ ['\n']) = entries f ++ entries t := by
  have hnil : entries [] = [] := by decide
  rcases h with rfl | ⟨g, rfl⟩
  · rw [List.nil_append, hnil, List.nil_append, show t ++ ['\n'] = t ++ '\n' :: [] from rfl, entries_append, hnil, List.append_nil]
  · rw [show g ++ ['\n'] ++ t ++ ['\n'] = g ++ '\n' :: (t ++ '\n' :: []) by simp, entries_append, entries_append,
      show g ++ ['\n'] = g ++ '\n' :: [] from rfl, entries_append, hnil]
    simp

theorem file_step {tty verbose : Bool} {w : Works} {o o' : Outputs} {e : Event} {f : Text} (he : Proper e)
    (hf : o.file = some f) (hend : Ended f) (h : logEvent tty verbose w o e = .ok o') :
    ∃ f', o'.file = some f' ∧ Ended f' ∧ entries f' = entries f ++ [headline e] := by
  unfold logEvent at h
  split at h
  · cases h
  · rename_i m hm
    obtain ⟨c, t⟩ := m
    obtain ⟨ls, h1, h2⟩ := lines_entry he hm
    have h3 := entries_of h1 (headline_entry he) h2
    have hne : t ≠ [] := by rintro rfl; exact absurd h3 (by simp [entries, lines, isDetail])
    unfold msg at h
    split at h
    · cases h
    · rename_i o1 ho1
      simp only [Outputs.toFile, hf, if_neg hne] at ho1
      split at ho1
      · cases ho1
        have : o'.file = some (f ++ t ++ ['\n']) := by
          simp only [Outputs.toConsole] at h
          split at h
          · cases h; rfl
          · split at h
            · cases h; rfl
            · cases h
        exact ⟨_, this, .inr ⟨_, rfl⟩, by rw [entries_ended hend, h3]⟩
      · cases ho1

/-- C117: the entries of the log file are the events, one for each in the order in which they happened, whatever `--verbose` and
the terminal are, and whatever the programs that are run, error messages and tracebacks contain: no text in them can look like an
entry.  The entry shows time, task, level, job, event and values without colour codes. -/
theorem C117_file_complete (tty verbose : Bool) (w : Works) : ∀ (es : List Event) (o o' : Outputs) (f : Text),
    (∀ e ∈ es, Proper e) → o.file = some f → Ended f → logAll tty verbose w o es = .ok o' →
    ∃ f', o'.file = some f' ∧ entries f' = entries f ++ es.map headline := by
  intro es
  induction es with
  | nil =>
    intro o o' f _ hf _ h
    cases h
    exact ⟨f, hf, by simp⟩
  | cons e es ih =>
    intro o o' f hp hf hend h
    simp only [logAll] at h
    split at h
    · cases h
    · rename_i o1 ho1
      obtain ⟨f1, h1, h2, h3⟩ := file_step (hp e (.head _)) hf hend ho1
      obtain ⟨f', h4, h5⟩ := ih o1 o' f1 (fun x hx => hp x (.tail _ hx)) h1 h2 h
      exact ⟨f', h4, by rw [h5, h3]; simp⟩

theorem shown_iff (verbose : Bool) (l : String) (hl : l ∈ levels) :
    ¬ levels.idxOf l > minLevel verbose ↔ verbose = true ∨ l ∈ important := by
  simp only [levels, List.mem_cons, List.not_mem_nil, or_false] at hl
  rcases hl with rfl | rfl | rfl | rfl | rfl | rfl | rfl | rfl | rfl <;> cases verbose <;> decide

theorem console_step {tty verbose : Bool} {w : Works} {o o' : Outputs} {e : Event} (h : logEvent tty verbose w o e = .ok o') :
    ∃ c t, render tty (minLevel verbose) e = .ok (c, t) ∧
      o'.console = if c = [] then o.console else o.console ++ c ++ ['\n'] := by
  unfold logEvent at h
  split at h
  · cases h
  · rename_i m hm
    obtain ⟨c, t⟩ := m
    refine ⟨c, t, hm, ?_⟩
    unfold msg at h
    split at h
    · cases h
    · rename_i o1 ho1
      have h1 : o1.console = o.console := by
        simp only [Outputs.toFile] at ho1
        split at ho1
        · cases ho1; rfl
        · split at ho1
          · cases ho1; rfl
          · split at ho1
            · cases ho1; rfl
            · cases ho1
      simp only [Outputs.toConsole] at h
      split at h
      · rename_i hc; cases h; rw [if_pos hc]; exact h1
      · rename_i hc
        split at h
        · cases h; rw [if_neg hc]; show o1.console ++ c ++ ['\n'] = _; rw [h1]
        · cases h

/-- C117: without `--verbose` an event below `info` leaves nothing on the console; every other event does. -/
theorem C117_console_level (tty verbose : Bool) (w : Works) (o o' : Outputs) (e : Event)
    (h : logEvent tty verbose w o e = .ok o') :
    (o'.console = o.console ↔ verbose = false ∧ e.method.toLower ∉ important) := by
  obtain ⟨c, t, hr, hc⟩ := console_step h
  obtain ⟨lvl, tb, _, _, hm, _, hcc⟩ := render_ok hr
  have hne : (heads tty e lvl ++ tails tty e tb).flatten ≠ [] := by
    simp only [heads, List.flatten_append, ne_eq, List.append_eq_nil_iff, not_and]
    intro hx
    simp at hx
  have hiff := shown_iff verbose _ hm
  by_cases hs : levels.idxOf e.method.toLower > minLevel verbose
  · rw [if_pos hs] at hcc
    rw [hc, if_pos hcc]
    have := (not_congr hiff).1 (not_not_intro hs)
    simp only [not_or, Bool.not_eq_true] at this
    exact ⟨fun _ => this, fun _ => rfl⟩
  · rw [if_neg hs] at hcc
    have hcn : c ≠ [] := hcc ▸ hne
    rw [hc, if_neg hcn]
    have h1 := hiff.1 hs
    constructor
    · intro heq
      have := congrArg List.length heq
      simp at this
    · rintro ⟨rfl, h2⟩
      rcases h1 with h1 | h1
      · cases h1
      · exact absurd h1 h2

/-- C117: the entries on the console, if it is no terminal, are the events that are important enough, all of them with
`--verbose`. -/
theorem C117_console (verbose : Bool) (w : Works) : ∀ (es : List Event) (o o' : Outputs),
    (∀ e ∈ es, Proper e) → Ended o.console → logAll false verbose w o es = .ok o' →
    entries o'.console = entries o.console ++
      (es.filter (fun e => verbose || important.contains e.method.toLower)).map headline := by
  intro es
  induction es with
  | nil =>
    intro o o' _ _ h
    cases h
    simp
  | cons e es ih =>
    intro o o' hp hend h
    simp only [logAll] at h
    split at h
    · cases h
    · rename_i o1 ho1
      have hpe := hp e (.head _)
      obtain ⟨c, t, hr, hc⟩ := console_step ho1
      obtain ⟨lvl, tb, _, _, hm, hf, hcc⟩ := render_ok hr
      have hiff := shown_iff verbose _ hm
      obtain ⟨ls, h1, h2⟩ := lines_entry hpe hr
      have h3 := entries_of h1 (headline_entry hpe) h2
      have hft : t = (heads false e lvl ++ tails false e tb).flatten := by rw [hf]; exact congrArg List.flatten (List.map_id _)
      by_cases hs : levels.idxOf e.method.toLower > minLevel verbose
      · rw [if_pos hs] at hcc
        rw [if_pos hcc] at hc
        have hn := (not_congr hiff).1 (not_not_intro hs)
        simp only [not_or, Bool.not_eq_true] at hn
        rw [ih o1 o' (fun x hx => hp x (.tail _ hx)) (hc ▸ hend) h, hc, List.filter_cons_of_neg (by simp [hn.1, hn.2])]
      · rw [if_neg hs, ← hft] at hcc
        subst hcc
        have hne : c ≠ [] := by rintro rfl; exact absurd h3 (by simp [entries, lines, isDetail])
        rw [if_neg hne] at hc
        have hy := hiff.1 hs
        rw [ih o1 o' (fun x hx => hp x (.tail _ hx)) (hc ▸ .inr ⟨_, rfl⟩) h, hc, entries_ended hend, h3,
          List.filter_cons_of_pos (by simpa using hy)]
        simp

/-! ### Details are kept -/

theorem foldl_newline : ∀ (cs : List Colour) (a b : Text),
    cs.foldl (fun l c => remove c.seq 0 l) (a ++ '\n' :: b) =
      cs.foldl (fun l c => remove c.seq 0 l) a ++ '\n' :: cs.foldl (fun l c => remove c.seq 0 l) b
  | [], _, _ => rfl
  | c :: cs, a, b => by
    rw [List.foldl_cons, remove_newline c.isCode _ a b (Nat.le_refl _), foldl_newline cs]
    rfl

theorem plain_split (tty : Bool) (a b : Text) : plain tty (a ++ '\n' :: b) = plain tty a ++ '\n' :: plain tty b := by
  cases tty with
  | false => rfl
  | true => exact foldl_newline allColours a b

theorem afterNewlines_split (m : Text) : ∀ (a b : Text),
    afterNewlines m (a ++ '\n' :: b) = afterNewlines m a ++ '\n' :: (m ++ afterNewlines m b)
  | [], b => by simp [afterNewlines]
  | c :: a, b => by
    simp only [List.cons_append, afterNewlines, afterNewlines_split m a b]
    split <;> simp

theorem block_lines (tty : Bool) (before p s : Text) (hb : before = [] ∨ before = col tty .dim) (hp : p ++ ['>', '\t'] ∈ marks) :
    ∃ a b, plain tty (block tty before p s) = '\n' :: (a ++ '\n' :: b) ∧
      lines a = (p ++ ['>', '\t']) :: (lines s).map (fun l => (p ++ ['>', '\t']) ++ plain tty l) := by
  have hm := marks_plain _ hp
  have h1 : block tty before p s = '\n' :: (before ++ (prefixed p ('\n' :: s) ++ '\n' :: ((p ++ ['>', '\t']) ++ col tty .resetAll))) := by
    have : afterNewlines (p ++ ['>', '\t']) (['\n'] ++ s ++ ['\n']) =
        afterNewlines (p ++ ['>', '\t']) ('\n' :: s) ++ '\n' :: ((p ++ ['>', '\t']) ++ []) :=
      afterNewlines_split _ ('\n' :: s) []
    simp only [block, prefixed, this]
    simp
  have h2 : plain tty (before ++ (prefixed p ('\n' :: s) ++ '\n' :: ((p ++ ['>', '\t']) ++ col tty .resetAll))) =
      plain tty (prefixed p ('\n' :: s)) ++ '\n' :: plain tty ((p ++ ['>', '\t']) ++ col tty .resetAll) := by
    rcases hb with rfl | rfl
    · rw [List.nil_append, plain_split]
    · rw [plain_col, plain_split]
  refine ⟨_, _, by rw [h1, plain_newline, h2], ?_⟩
  rw [lines_plain, lines_prefixed p (fun c hc => (hm c (List.mem_append_left _ hc)).1),
    show lines ('\n' :: s) = [] :: lines s by simp [lines], List.map_cons, List.map_cons, List.append_nil,
    plain_clean tty _ (fun c hc => (hm c hc).2), List.map_map]
  congr 1
  refine List.map_congr_left ?_
  intro l _
  exact plain_append tty _ l (fun c hc => (hm c hc).2)

/-- Escape characters are only looked for if stderr is a terminal. -/
def Unescaped (tty : Bool) (s : Text) : Prop := tty = true → ∀ c ∈ s, c ≠ Char.ofNat 27

theorem lines_subset : ∀ (s l : Text), l ∈ lines s → ∀ c ∈ l, c ∈ s
  | [], l, h, c, hc => by simp only [lines, List.mem_singleton] at h; subst h; cases hc
  | x :: s, l, h, c, hc => by
    by_cases hx : x = '\n'
    · simp only [lines, if_pos hx] at h
      rcases List.mem_cons.1 h with rfl | h
      · cases hc
      · exact .tail _ (lines_subset s l h c hc)
    · obtain ⟨l1, ls, h1, h2⟩ := lines_cons x s hx
      rw [h2] at h
      rcases List.mem_cons.1 h with rfl | h
      · rcases List.mem_cons.1 hc with rfl | hc
        · exact .head _
        · exact .tail _ (lines_subset s l1 (h1 ▸ .head _) c hc)
      · exact .tail _ (lines_subset s l (h1 ▸ .tail _ h) c hc)

theorem plain_lines (tty : Bool) (s m : Text) (h : Unescaped tty s) :
    (lines s).map (fun l => m ++ plain tty l) = (lines s).map (m ++ ·) := by
  refine List.map_congr_left ?_
  intro l hl
  cases tty with
  | false => rfl
  | true => rw [plain_clean true l (fun c hc => h rfl c (lines_subset s l hl c hc))]

/-- A part of the text of an entry, each line with a mark. -/
def Kept (mark s : Text) (file : Text) : Prop := (lines s).map (mark ++ ·) <:+: lines file

theorem block_kept {tty : Bool} {before p s x : Text} {ps : List Text} (hb : before = [] ∨ before = col tty .dim)
    (hp : p ++ ['>', '\t'] ∈ marks) (hx : x = block tty before p s) (hmem : x ∈ ps) (hs : Unescaped tty s) :
    Kept (p ++ ['>', '\t']) s (ps.map (plain tty)).flatten := by
  obtain ⟨pre, post, rfl⟩ := List.append_of_mem hmem
  obtain ⟨a, b, h1, h2⟩ := block_lines tty before p s hb hp
  subst hx
  unfold Kept
  rw [List.map_append, List.flatten_append, List.map_cons, List.flatten_cons, h1]
  simp only [List.cons_append, List.append_assoc]
  rw [lines_append, lines_append, h2, plain_lines tty s _ hs]
  exact ⟨lines (pre.map (plain tty)).flatten ++ [p ++ ['>', '\t']], lines (b ++ (post.map (plain tty)).flatten), by simp⟩

/-- C117: what a program has printed is in the log file, line by line, each line marked with where it comes from. -/
theorem C117_output_kept (tty : Bool) (n : Nat) (e : Event) (c f : Text) (h : render tty n e = .ok (c, f)) :
    (∀ s, e.stdout = some s → Unescaped tty s → Kept "out>\t".toList s f) ∧
    (∀ s, e.stderr = some s → Unescaped tty s → Kept "err>\t".toList s f) := by
  obtain ⟨lvl, tb, _, _, _, rfl, _⟩ := render_ok h
  refine ⟨fun s hs hu => ?_, fun s hs hu => ?_⟩
  · refine block_kept (p := "out".toList) (.inr rfl) (by decide) rfl ?_ hu
    refine List.mem_append_right _ ?_
    simp only [tails, hs, List.mem_append]
    exact .inl (.inl (.inl (.inr (.head _))))
  · refine block_kept (p := "err".toList) (.inl rfl) (by decide) rfl ?_ hu
    refine List.mem_append_right _ ?_
    simp only [tails, hs, List.mem_append]
    exact .inl (.inl (.inr (.head _)))

/-- C117: unless a short form is asked for, the traceback of an exception is in the log file, each line marked. -/
theorem C117_traceback_kept (tty : Bool) (n : Nat) (e : Event) (c f s : Text) (h : render tty n e = .ok (c, f))
    (hs : e.traceback = some s) (hl : e.style = .long) (hu : Unescaped tty s) : Kept "exception>\t".toList s f := by
  obtain ⟨lvl, tb, _, htb, _, rfl, _⟩ := render_ok h
  simp only [Event.shownTraceback, hl, hs] at htb
  cases htb
  unfold Kept
  rw [tails, List.map_append, List.map_append, List.flatten_append, List.flatten_append]
  simp only [opt, List.map_cons, List.map_nil, List.flatten_cons, List.flatten_nil, List.append_nil, List.cons_append,
    List.nil_append]
  rw [plain_newline, ← List.append_assoc, lines_append, lines_plain, lines_prefixed _ (by decide), List.map_map]
  have : (lines s).map (plain tty ∘ fun x => "exception".toList ++ ['>', '\t'] ++ x) =
      (lines s).map ("exception>\t".toList ++ ·) := by
    rw [← plain_lines tty s _ hu]
    refine List.map_congr_left ?_
    intro l _
    exact plain_append tty _ l (by decide)
  rw [this]
  exact ⟨_, [], List.append_nil _⟩

/-! ### Logging does not fail -/

/-- What the program passes: known methods and levels, and no banner without a message. -/
def Usual (e : Event) : Prop :=
  e.method.toLower ∈ levels ∧ (∀ l, e.level = some l → l ∈ levels) ∧
  (e.style = .banner → e.excMsg.isSome = true ∨ e.traceback.isSome = true)

/-- C117: as long as the log file and stderr can be written, logging does not raise, whatever is logged. -/
theorem C117_never_raises (tty verbose : Bool) : ∀ (es : List Event) (o : Outputs), (∀ e ∈ es, Usual e) →
    ∃ o', logAll tty verbose {} o es = .ok o' := by
  intro es
  induction es with
  | nil => exact fun o _ => ⟨o, rfl⟩
  | cons e es ih =>
    intro o hu
    obtain ⟨h1, h2, h3⟩ := hu e (.head _)
    have hl : ∃ lvl, levelPart tty e.level = .ok lvl := by
      cases hl : e.level with
      | none => exact ⟨_, rfl⟩
      | some l =>
        have := h2 l hl
        simp only [levels, List.mem_cons, List.not_mem_nil, or_false] at this
        rcases this with rfl | rfl | rfl | rfl | rfl | rfl | rfl | rfl | rfl <;> exact ⟨_, rfl⟩
    have ht : ∃ tb, e.shownTraceback = .ok tb := by
      unfold Event.shownTraceback
      split
      · exact ⟨_, rfl⟩
      · exact ⟨_, rfl⟩
      · rename_i hst
        split
        · exact ⟨_, rfl⟩
        · exact ⟨_, rfl⟩
        · rename_i ha hb
          rcases h3 hst with h | h
          · rw [ha] at h; cases h
          · rw [hb] at h; cases h
    obtain ⟨lvl, hl⟩ := hl
    obtain ⟨tb, ht⟩ := ht
    have hr : ∃ m, render tty (minLevel verbose) e = .ok m := by
      simp only [render, pieces, hl, ht, levelIndex, if_pos h1]
      exact ⟨_, rfl⟩
    obtain ⟨m, hr⟩ := hr
    have hf : ∃ o1, o.toFile {} m.2 = .ok o1 := by
      unfold Outputs.toFile
      split
      · exact ⟨_, rfl⟩
      · split
        · exact ⟨_, rfl⟩
        · exact ⟨_, rfl⟩
    obtain ⟨o1, hf⟩ := hf
    have hc : ∃ o2, o1.toConsole {} m.1 = .ok o2 := by
      unfold Outputs.toConsole
      split
      · exact ⟨_, rfl⟩
      · exact ⟨_, rfl⟩
    obtain ⟨o2, hc⟩ := hc
    obtain ⟨o', ho⟩ := ih o2 (fun x hx => hu x (.tail _ hx))
    exact ⟨o', by simp only [logAll, logEvent, hr, msg, hf, hc, ho]⟩

/-- C117: if the log file cannot be written, the error is not ignored (as the description of the logger has it): it hits
whatever was logging. -/
theorem C117_write_error_escapes (tty verbose : Bool) (w : Works) (o : Outputs) (f : Text) (e : Event) (he : Proper e)
    (hf : o.file = some f) (hw : w.file = false) : ∃ x, logEvent tty verbose w o e = .error x := by
  unfold logEvent
  cases hr : render tty (minLevel verbose) e with
  | error x => exact ⟨x, rfl⟩
  | ok m =>
    obtain ⟨c, t⟩ := m
    obtain ⟨ls, h1, h2⟩ := lines_entry he hr
    have h3 := entries_of h1 (headline_entry he) h2
    have hne : t ≠ [] := by rintro rfl; exact absurd h3 (by simp [entries, lines, isDetail])
    refine ⟨.os, ?_⟩
    simp only [msg, Outputs.toFile, hf, if_neg hne, hw]
    rfl

/-! ### Examples -/

/-- The callback has printed something that looks like an entry. -/
def exCallback : Event :=
  { method := "info", ts := some "2026-11-18T12:00:00".toList, taskid := some "AAAA".toList, level := some "info",
    jobName := "vm1".toList, subsystem := "job".toList, event := "callback-finished".toList,
    stdout := some "ok\n2026-11-18T12:00:01 AAAA I vm1 all fine".toList, rest := [("return_code".toList, "0".toList)] }

/-- A debug message. -/
def exDebug : Event :=
  { method := "debug", ts := some "2026-11-18T12:00:02".toList, level := some "debug", event := "return-code".toList }

theorem exCallback_proper : Proper exCallback where
  ts := ⟨'2', "026-11-18T12:00:00".toList, rfl, by decide, by unfold Clean; decide⟩
  taskid := by intro s h; cases h; unfold Clean; decide
  jobName := by unfold Clean; decide
  subTaskid := by intro s h; cases h
  subsystem := by unfold Clean; decide
  event := by unfold Clean; decide
  logger := by intro s h; cases h
  rest := by unfold Clean; decide

theorem exDebug_proper : Proper exDebug where
  ts := ⟨'2', "026-11-18T12:00:02".toList, rfl, by decide, by unfold Clean; decide⟩
  taskid := by intro s h; cases h
  jobName := by unfold Clean; decide
  subTaskid := by intro s h; cases h
  subsystem := by unfold Clean; decide
  event := by unfold Clean; decide
  logger := by intro s h; cases h
  rest := by intro kv h; cases h

theorem exBoth_proper : ∀ e ∈ [exCallback, exDebug], Proper e := by
  intro e he
  simp only [List.mem_cons, List.not_mem_nil, or_false] at he
  rcases he with rfl | rfl
  · exact exCallback_proper
  · exact exDebug_proper

/-- What is written for the two events. -/
def exRun (tty verbose : Bool) : Except PyErr Outputs := logAll tty verbose {} ⟨some [], []⟩ [exCallback, exDebug]

example : ∃ o, exRun true false = .ok o ∧ (∃ f, o.file = some f ∧ entries f = [headline exCallback, headline exDebug]) := by
  obtain ⟨o, ho⟩ := C117_never_raises true false [exCallback, exDebug] ⟨some [], []⟩ (by
    intro e he
    simp only [List.mem_cons, List.not_mem_nil, or_false] at he
    rcases he with rfl | rfl <;>
      exact ⟨by decide +kernel, by (intro l hl; cases hl; decide), by (intro h; cases h)⟩)
  exact ⟨o, ho, C117_file_complete true false {} _ _ o [] exBoth_proper rfl (.inl rfl) ho⟩

example : (exRun false false).map (fun o => entries o.console) = .ok [headline exCallback] ∧
    (exRun false true).map (fun o => entries o.console) = .ok [headline exCallback, headline exDebug] ∧
    headline exCallback = ("2026-11-18T12:00:00 AAAA I vm1                  job/callback-finished               " ++
      "return_code=0").toList := by
  decide +kernel

/-- A failed step, logged with its traceback. -/
def exFailed : Event :=
  { method := "exception", ts := some "2026-11-18T12:00:03".toList, level := some "error", jobName := "vm1".toList,
    event := "failed".toList, traceback := some "Traceback\nOSError: no space".toList }

theorem exFailed_proper : Proper exFailed where
  ts := ⟨'2', "026-11-18T12:00:03".toList, rfl, by decide, by unfold Clean; decide⟩
  taskid := by intro s h; cases h
  jobName := by unfold Clean; decide
  subTaskid := by intro s h; cases h
  subsystem := by unfold Clean; decide
  event := by unfold Clean; decide
  logger := by intro s h; cases h
  rest := by intro kv h; cases h

theorem render_of_isOk {tty : Bool} {n : Nat} {e : Event} (h : (render tty n e).isOk = true) : ∃ c f, render tty n e = .ok (c, f) := by
  cases hr : render tty n e with
  | error x => rw [hr] at h; cases h
  | ok m => exact ⟨m.1, m.2, rfl⟩

example : ∃ c f, render true 6 exFailed = .ok (c, f) ∧ Kept "exception>\t".toList "Traceback\nOSError: no space".toList f := by
  obtain ⟨c, f, h⟩ := render_of_isOk (tty := true) (n := 6) (e := exFailed) (by decide +kernel)
  exact ⟨c, f, h, C117_traceback_kept true 6 exFailed c f _ h rfl rfl (by intro _; decide)⟩

example : ∃ c f, render true 6 exCallback = .ok (c, f) ∧
    Kept "out>\t".toList "ok\n2026-11-18T12:00:01 AAAA I vm1 all fine".toList f := by
  obtain ⟨c, f, h⟩ := render_of_isOk (tty := true) (n := 6) (e := exCallback) (by decide +kernel)
  exact ⟨c, f, h, (C117_output_kept true 6 exCallback c f h).1 _ rfl (by intro _; decide)⟩

example (o : Outputs) (h : logAll false true {} ⟨some [], []⟩ [exCallback, exDebug] = .ok o) :=
  C117_console true {} [exCallback, exDebug] ⟨some [], []⟩ o exBoth_proper (.inl rfl) h

example (o : Outputs) (h : logEvent true false {} ⟨some [], []⟩ exDebug = .ok o) : o.console = [] :=
  (C117_console_level true false {} ⟨some [], []⟩ o exDebug h).2 ⟨rfl, by decide +kernel⟩

example := C117_write_error_escapes true false { file := false } ⟨some [], []⟩ [] exFailed exFailed_proper rfl rfl

end Verif.Logging
