import Verif.Model.RevSpec
/-!
# Every lookup yields revisions of the history, each once
-/
set_option linter.dupNamespace false
namespace Verif.Repo
open Verif

/-- The list contains only revisions of `H`, and none twice. -/
def Sel (H l : List Rev) : Prop := l ⊆ H ∧ l.Nodup

/-- A token that is text, a revision of the history or a selection from it. -/
def TokOK (H : List Rev) : Tok → Prop
  | .str _ => True
  | .rev r => r ∈ H
  | .revs l => Sel H l

theorem mem_unique {α : Type} [DecidableEq α] : ∀ (l : List α) (a : α), a ∈ unique l ↔ a ∈ l
  | [], a => by simp [unique]
  | b :: l, a => by
    simp only [unique, List.mem_cons, List.mem_filter, decide_eq_true_eq, mem_unique l a]
    by_cases h : a = b <;> simp [h]

theorem unique_nodup {α : Type} [DecidableEq α] : ∀ l : List α, (unique l).Nodup
  | [] => by simp [unique]
  | b :: l => by
    rw [unique, List.nodup_cons]
    exact ⟨by simp, (unique_nodup l).filter _⟩

theorem unique_eq_self {α : Type} [DecidableEq α] : ∀ {l : List α}, l.Nodup → unique l = l
  | [], _ => rfl
  | b :: l, h => by
    rw [List.nodup_cons] at h
    rw [unique, unique_eq_self h.2, List.filter_eq_self.2]
    intro a ha
    simp only [decide_eq_true_eq]
    rintro rfl; exact h.1 ha

theorem sel_filter {H : List Rev} (hH : H.Nodup) (p : Rev → Bool) : Sel H (H.filter p) :=
  ⟨fun _ h => List.mem_of_mem_filter h, hH.filter _⟩

theorem tryFinds_mem {H : List Rev} : ∀ {l : List (Except PyErr Rev)} {r : Rev},
    (∀ x ∈ l, ∀ r, x = .ok r → r ∈ H) → tryFinds l = .ok r → r ∈ H
  | [], _, _, h => by cases h
  | .ok x :: t, r, hl, h => by
    rw [tryFinds] at h
    cases h
    exact hl _ (by simp) _ rfl
  | .error e :: t, r, hl, h => by
    have : tryFinds t = .ok r := by
      cases e <;> first | exact h | cases h
    exact tryFinds_mem (fun x hx => hl x (by simp [hx])) this

theorem findByNumber_mem {h : List Rev} {s : String} {r : Rev} (hf : findByNumber h s = .ok r) : r ∈ h := by
  unfold findByNumber at hf
  split at hf
  · cases hf
  · split at hf
    · cases hf
    · split at hf
      · cases hf
      · rename_i hg
        cases hf
        exact List.mem_reverse.1 (List.mem_of_getElem? hg)

theorem findByUuid_mem {h : List Rev} {s : String} {r : Rev} (hf : findByUuid h s = .ok r) : r ∈ h := by
  unfold findByUuid at hf
  split at hf
  · cases hf
  · rename_i hg; cases hf; exact List.mem_of_find?_eq_some hg

theorem findByTag_mem {h : List Rev} {s : String} {r : Rev} (hf : findByTag h s = .ok r) : r ∈ h := by
  unfold findByTag at hf
  split at hf
  · split at hf
    · cases hf
    · rename_i hg; cases hf; exact List.mem_of_getLast? hg
  · split at hf
    · split at hf
      · cases hf
      · rename_i hg; cases hf; exact List.mem_of_head? hg
    · cases hf

theorem findTok_mem {h : List Rev} {s : String} {r : Rev} (hf : findTok h s = .ok r) : r ∈ h := by
  unfold findTok at hf
  dsimp only at hf
  split at hf
  · cases hf
  · refine tryFinds_mem ?_ hf
    intro x hx r hr
    subst hr
    simp only [List.mem_cons, List.not_mem_nil, or_false] at hx
    rcases hx with hx | hx | hx | hx
    · exact findByNumber_mem hx.symm
    · exact findByUuid_mem hx.symm
    · exact findByTag_mem hx.symm
    · cases hx

theorem evalAtom_sel {c : Ctx} (hH : c.history.Nodup) {s : String} {l : List Rev}
    (h : evalAtom c s = .ok l) : Sel c.history l := by
  unfold evalAtom at h
  split at h
  · cases h; exact sel_filter hH _
  · split at h
    · cases h; exact sel_filter hH _
    · split at h
      · split at h
        · cases h
        · cases h; exact sel_filter hH _
      · split at h
        · cases h; exact ⟨List.Subset.refl _, hH⟩
        · split at h
          · cases h; exact sel_filter hH _
          · split at h
            · cases h; exact sel_filter hH _
            · split at h
              · cases h; exact sel_filter hH _
              · split at h
                · cases h
                · rename_i hf
                  cases h
                  exact ⟨by simpa using findTok_mem hf, by simp⟩

theorem sliceBetween_sel {H : List Rev} (hH : H.Nodup) (a b : Int) : Sel H (sliceBetween H a b) := by
  unfold sliceBetween
  dsimp only
  have hs : List.Sublist ((H.take (max a b / 2 + 1).toNat).drop ((min a b + 1) / 2).toNat) H :=
    (List.drop_sublist _ _).trans (List.take_sublist _ _)
  exact ⟨hs.subset, hs.nodup hH⟩

theorem evalRange_sel {c : Ctx} (hH : c.history.Nodup) {a b : List Tok} {l : List Rev}
    (h : evalRange c a b = .ok l) : Sel c.history l := by
  unfold evalRange at h
  split at h
  · cases h
  · split at h
    · cases h
    · split at h
      · cases h
      · split at h
        · cases h
        · cases h; exact sliceBetween_sel hH _ _

theorem Fn.apply_ok {H : List Rev} (hH : H.Nodup) {f : Fn} {l : List Rev} {v : Tok} (hl : Sel H l)
    (h : f.apply H l = .ok v) : TokOK H v := by
  cases f with
  | first =>
    simp only [Fn.apply] at h
    split at h
    · cases h
    · rename_i hg; cases h; exact hl.1 (List.mem_of_head? hg)
  | last =>
    simp only [Fn.apply] at h
    split at h
    · cases h
    · rename_i hg; cases h; exact hl.1 (List.mem_of_getLast? hg)
  | not => cases h; exact sel_filter hH _
  | reverse => cases h; exact ⟨fun x hx => hl.1 (List.mem_reverse.1 hx), List.nodup_reverse.2 hl.2⟩

/-- The token list after a parenthesis has been evaluated to `l` (`repository.py:399-408`). -/
def closeParen (H : List Rev) (prev next : List Tok) (l : List Rev) : Except PyErr (List Tok) :=
  match prev.getLast? with
  | none => .ok (prev ++ [.revs l] ++ next)
  | some t =>
    match Fn.ofTok t with
    | some f =>
      match f.apply H l with
      | .error e => .error e
      | .ok v => .ok (prev.dropLast ++ [v] ++ next)
    | none => .ok (prev ++ [.revs l] ++ next)

theorem evalToks_paren {c : Ctx} {toks prev rest middle next : List Tok}
    (hp : .str "(" ∈ toks ∧ .str ")" ∈ toks) (h1 : splitLast (.str "(") toks = some (prev, rest))
    (h2 : splitFirst (.str ")") rest = some (middle, next)) :
    evalToks c toks = (evalToks c middle).bind (fun l => (closeParen c.history prev next l).bind (evalToks c)) := by
  rw [evalToks, if_pos hp]
  split
  · rename_i h; rw [h1] at h; cases h
  · rename_i h; rw [h1] at h; cases h
    split
    · rename_i h; rw [h2] at h; cases h
    · rename_i h; rw [h2] at h; cases h
      cases he : evalToks c middle with
      | error e => rfl
      | ok l =>
        dsimp only [Except.bind]
        unfold closeParen
        split
        · rename_i h; rw [h]
        · rename_i h; rw [h]
          dsimp only
          cases Fn.ofTok _ with
          | none => rfl
          | some f =>
            dsimp only
            cases Fn.apply c.history f l <;> rfl

theorem evalToks_noclose {c : Ctx} {toks prev rest : List Tok}
    (hp : .str "(" ∈ toks ∧ .str ")" ∈ toks) (h1 : splitLast (.str "(") toks = some (prev, rest))
    (h2 : splitFirst (.str ")") rest = none) : evalToks c toks = .error .value := by
  rw [evalToks, if_pos hp]
  split
  · rfl
  · rename_i h; rw [h1] at h; cases h
    split
    · rfl
    · rename_i h; rw [h2] at h; cases h

theorem evalToks_comma {c : Ctx} {toks a b : List Tok}
    (hp : ¬ (.str "(" ∈ toks ∧ .str ")" ∈ toks)) (h1 : splitFirst (.str ",") toks = some (a, b)) :
    evalToks c toks = (evalToks c a).bind (fun x => (evalToks c b).bind (fun y => .ok (unique (x ++ y)))) := by
  rw [evalToks, if_neg hp]
  split
  · rename_i h; rw [h1] at h; cases h
    cases evalToks c a with
    | error e => rfl
    | ok x => cases evalToks c b <;> rfl
  · rename_i h; rw [h1] at h; cases h

theorem evalToks_amp {c : Ctx} {toks a b : List Tok}
    (hp : ¬ (.str "(" ∈ toks ∧ .str ")" ∈ toks)) (h1 : splitFirst (.str ",") toks = none)
    (h2 : splitFirst (.str "&") toks = some (a, b)) :
    evalToks c toks = (evalToks c a).bind (fun x => (evalToks c b).bind (fun y => .ok (duplicates x y))) := by
  rw [evalToks, if_neg hp]
  split
  · rename_i h; rw [h1] at h; cases h
  · split
    · rename_i h; rw [h2] at h; cases h
      cases evalToks c a with
      | error e => rfl
      | ok x => cases evalToks c b <;> rfl
    · rename_i h; rw [h2] at h; cases h

/-- The cases without parentheses, commas and ampersands (`repository.py:420-450`). -/
def evalSimple (c : Ctx) (toks : List Tok) : Except PyErr (List Rev) :=
  match splitFirst (.str "..") toks with
  | some (a, b) => evalRange c a b
  | none => match toks with
    | [t] => evalTok c t
    | _ => .error .assertion

theorem evalToks_simple {c : Ctx} {toks : List Tok}
    (hp : ¬ (.str "(" ∈ toks ∧ .str ")" ∈ toks)) (h1 : splitFirst (.str ",") toks = none)
    (h2 : splitFirst (.str "&") toks = none) :
    evalToks c toks = evalSimple c toks := by
  rw [evalToks, if_neg hp]
  split
  · rename_i h; rw [h1] at h; cases h
  · split
    · rename_i h; rw [h2] at h; cases h
    · unfold evalSimple
      cases splitFirst (.str "..") toks with
      | some p => rfl
      | none =>
        dsimp only
        match toks with
        | [] => rfl
        | [t] => rfl
        | _ :: _ :: _ => rfl

theorem splitLast_isSome {v : Tok} : ∀ {l : List Tok}, v ∈ l → ∃ a b, splitLast v l = some (a, b)
  | [], h => by simp at h
  | t :: l, h => by
    rw [splitLast]
    cases hs : splitLast v l with
    | some p => exact ⟨_, _, rfl⟩
    | none =>
      rcases List.mem_cons.1 h with rfl | h
      · exact ⟨[], l, by simp⟩
      · obtain ⟨a, b, hab⟩ := splitLast_isSome h
        rw [hs] at hab; cases hab

theorem evalSimple_sel {c : Ctx} (hH : c.history.Nodup) {toks : List Tok} (ht : ∀ t ∈ toks, TokOK c.history t)
    {l : List Rev} (h : evalSimple c toks = .ok l) : Sel c.history l := by
  unfold evalSimple at h
  split at h
  · exact evalRange_sel hH h
  · split at h
    · rename_i t _
      have htt := ht t (by simp)
      cases t with
      | str s => exact evalAtom_sel hH h
      | rev r => cases h; exact ⟨by simpa [TokOK] using htt, by simp⟩
      | revs l => cases h; exact htt
    · cases h

theorem bind_ok {α β : Type} {x : Except PyErr α} {f : α → Except PyErr β} {b : β}
    (h : x.bind f = .ok b) : ∃ a, x = .ok a ∧ f a = .ok b := by
  cases x with
  | error e => cases h
  | ok a => exact ⟨a, rfl, h⟩

/-- Whatever the expression, the result is a selection from the history. -/
theorem evalToks_sel {c : Ctx} (hH : c.history.Nodup) (n : Nat) : ∀ toks : List Tok, toks.length ≤ n →
    (∀ t ∈ toks, TokOK c.history t) → ∀ l, evalToks c toks = .ok l → Sel c.history l := by
  induction n with
  | zero =>
    intro toks hn ht l h
    have : toks = [] := List.length_eq_zero_iff.1 (by omega)
    subst this
    rw [evalToks_simple (by simp) rfl rfl] at h
    exact evalSimple_sel hH ht h
  | succ n ih =>
    intro toks hn ht l h
    by_cases hp : .str "(" ∈ toks ∧ .str ")" ∈ toks
    · obtain ⟨prev, rest, h1⟩ := splitLast_isSome hp.1
      cases h2 : splitFirst (.str ")") rest with
      | none => rw [evalToks_noclose hp h1 h2] at h; cases h
      | some p =>
        obtain ⟨middle, next⟩ := p
        rw [evalToks_paren hp h1 h2] at h
        obtain ⟨l1, e1, h⟩ := bind_ok h
        obtain ⟨ts, e2, h⟩ := bind_ok h
        have q1 := splitLast_eq h1
        have q2 := splitFirst_eq h2
        subst q1; subst q2
        simp only [List.length_append, List.length_cons] at hn
        have hl1 := ih middle (by omega) (fun t htm => ht t (by simp [htm])) l1 e1
        have hprev : ∀ t ∈ prev, TokOK c.history t := fun t htm => ht t (by simp [htm])
        have hnext : ∀ t ∈ next, TokOK c.history t := fun t htm => ht t (by simp [htm])
        have hd : ts.length ≤ n ∧ ∀ t ∈ ts, TokOK c.history t := by
          have h0 : (prev ++ [Tok.revs l1] ++ next).length ≤ n ∧
              ∀ t ∈ prev ++ [Tok.revs l1] ++ next, TokOK c.history t := by
            refine ⟨by simp; omega, ?_⟩
            intro t htm
            simp only [List.mem_append, List.mem_singleton] at htm
            rcases htm with (h | rfl) | h
            · exact hprev t h
            · exact hl1
            · exact hnext t h
          unfold closeParen at e2
          split at e2
          · cases e2; exact h0
          · split at e2
            · split at e2
              · cases e2
              · rename_i hap
                cases e2
                refine ⟨by simp; omega, ?_⟩
                intro t htm
                simp only [List.mem_append, List.mem_singleton] at htm
                rcases htm with (h | rfl) | h
                · exact hprev t (List.mem_of_mem_dropLast h)
                · exact Fn.apply_ok hH hl1 hap
                · exact hnext t h
            · cases e2; exact h0
        exact ih ts hd.1 hd.2 l h
    · cases h1 : splitFirst (.str ",") toks with
      | some p =>
        obtain ⟨a, b⟩ := p
        rw [evalToks_comma hp h1] at h
        obtain ⟨x, e1, h⟩ := bind_ok h
        obtain ⟨y, e2, h⟩ := bind_ok h
        cases h
        have q := splitFirst_eq h1
        subst q
        simp only [List.length_append, List.length_cons] at hn
        have hx := ih a (by omega) (fun t htm => ht t (by simp [htm])) x e1
        have hy := ih b (by omega) (fun t htm => ht t (by simp [htm])) y e2
        refine ⟨?_, unique_nodup _⟩
        intro r hr
        rw [mem_unique, List.mem_append] at hr
        exact hr.elim (fun h => hx.1 h) (fun h => hy.1 h)
      | none =>
        cases h2 : splitFirst (.str "&") toks with
        | some p =>
          obtain ⟨a, b⟩ := p
          rw [evalToks_amp hp h1 h2] at h
          obtain ⟨x, e1, h⟩ := bind_ok h
          obtain ⟨y, e2, h⟩ := bind_ok h
          cases h
          have q := splitFirst_eq h2
          subst q
          simp only [List.length_append, List.length_cons] at hn
          have hx := ih a (by omega) (fun t htm => ht t (by simp [htm])) x e1
          refine ⟨?_, unique_nodup _⟩
          intro r hr
          rw [duplicates, mem_unique] at hr
          exact hx.1 (List.mem_of_mem_filter hr)
        | none =>
          rw [evalToks_simple hp h1 h2] at h
          exact evalSimple_sel hH ht h

theorem findRevisions_sel {c : Ctx} (hH : c.history.Nodup) {spec : String} {l : List Rev}
    (h : findRevisions c spec = .ok l) : Sel c.history l :=
  evalToks_sel hH _ _ (Nat.le_refl _) (by simp only [List.mem_map]; rintro t ⟨s, _, rfl⟩; trivial) l h

end Verif.Repo
