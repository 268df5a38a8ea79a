import Verif.Spec.RevExpr
import Verif.Proofs.RevResults
import Verif.Proofs.Tokenize
/-!
# The token evaluator computes the meaning of the grammar
-/
set_option linter.dupNamespace false
namespace Verif.Repo
open Verif Verif.Repo.Spec

theorem filter_unique {α : Type} [DecidableEq α] (p : α → Bool) : ∀ l : List α,
    (unique l).filter p = unique (l.filter p)
  | [] => rfl
  | a :: l => by
    rw [unique]
    by_cases h : p a
    · rw [List.filter_cons_of_pos h, List.filter_cons_of_pos h, unique, ← filter_unique p l,
        List.filter_filter, List.filter_filter]
      congr 1
      apply List.filter_congr
      intro x _
      rw [Bool.and_comm]
    · rw [List.filter_cons_of_neg h, List.filter_cons_of_neg h, ← filter_unique p l, List.filter_filter]
      apply List.filter_congr
      intro x _
      by_cases hx : x = a
      · subst hx; simp [h]
      · simp [hx]

theorem unique_eq_eraseDups {α : Type} [DecidableEq α] (n : Nat) : ∀ l : List α, l.length ≤ n →
    unique l = l.eraseDups := by
  induction n with
  | zero =>
    intro l h
    have : l = [] := List.length_eq_zero_iff.1 (by omega)
    subst this; rfl
  | succ n ih =>
    intro l h
    cases l with
    | nil => rfl
    | cons a l =>
      rw [unique, List.eraseDups_cons, filter_unique, ih]
      · congr 2
        apply List.filter_congr
        intro b _
        by_cases hb : b = a <;> simp [hb]
      · have := List.length_filter_le (fun b => decide (b ≠ a)) l
        simp only [List.length_cons] at h
        omega

theorem unique_append (a b : List Rev) : unique (a ++ b) = union a b :=
  unique_eq_eraseDups _ _ (Nat.le_refl _)

theorem duplicates_eq (a b : List Rev) : duplicates a b = inter a b :=
  unique_eq_eraseDups _ _ (Nat.le_refl _)

theorem zipIdx_slice : ∀ (H : List Rev) (k lo hi : Nat),
    ((H.zipIdx k).filter (fun x => decide (lo ≤ x.2 ∧ x.2 < hi))).map Prod.fst =
      (H.take (hi - k)).drop (lo - k)
  | [], k, lo, hi => by simp
  | r :: H, k, lo, hi => by
    rw [List.zipIdx_cons, List.filter_cons]
    have ih := zipIdx_slice H (k + 1) lo hi
    by_cases h1 : lo ≤ k
    · by_cases h2 : k < hi
      · rw [if_pos (by simp [h1, h2]), List.map_cons, ih]
        have e1 : hi - k = (hi - (k + 1)) + 1 := by omega
        have e2 : lo - k = 0 := by omega
        have e3 : lo - (k + 1) = 0 := by omega
        rw [e1, e2, e3, List.take_succ_cons]; rfl
      · rw [if_neg (by simp [h2]), ih]
        have e1 : hi - k = 0 := by omega
        have e2 : hi - (k + 1) = 0 := by omega
        rw [e1, e2]; simp
    · rw [if_neg (by simp [h1]), ih]
      have e2 : lo - k = (lo - (k + 1)) + 1 := by omega
      rw [e2]
      by_cases h2 : k < hi
      · have e1 : hi - k = (hi - (k + 1)) + 1 := by omega
        rw [e1, List.take_succ_cons, List.drop_succ_cons]
      · have e1 : hi - k = 0 := by omega
        have e3 : hi - (k + 1) = 0 := by omega
        rw [e1, e3]; simp

theorem sliceBetween_eq (H : List Rev) (a b : Int) : sliceBetween H a b = between H a b := by
  unfold sliceBetween between
  dsimp only
  have := zipIdx_slice H 0 ((min a b + 1) / 2).toNat (max a b / 2 + 1).toNat
  rw [Nat.sub_zero, Nat.sub_zero] at this
  rw [← this]
  congr 1
  apply List.filter_congr
  intro x _
  rw [decide_eq_decide]
  omega

theorem splitFirst_append {v : Tok} : ∀ {a b : List Tok}, v ∉ a → splitFirst v (a ++ v :: b) = some (a, b)
  | [], b, _ => by simp [splitFirst]
  | t :: a, b, h => by
    rw [List.mem_cons, not_or] at h
    rw [List.cons_append, splitFirst, if_neg (Ne.symm h.1), splitFirst_append h.2]

theorem splitFirst_none {v : Tok} : ∀ {a : List Tok}, v ∉ a → splitFirst v a = none
  | [], _ => rfl
  | t :: a, h => by
    rw [List.mem_cons, not_or] at h
    rw [splitFirst, if_neg (Ne.symm h.1), splitFirst_none h.2]

theorem splitLast_none {v : Tok} : ∀ {a : List Tok}, v ∉ a → splitLast v a = none
  | [], _ => rfl
  | t :: a, h => by
    rw [List.mem_cons, not_or] at h
    rw [splitLast, splitLast_none h.2]
    simp [Ne.symm h.1]

theorem splitLast_append {v : Tok} : ∀ {a b : List Tok}, v ∉ b → splitLast v (a ++ v :: b) = some (a, b)
  | [], b, h => by rw [List.nil_append, splitLast, splitLast_none h]; simp
  | t :: a, b, h => by rw [List.cons_append, splitLast, splitLast_append h]

/-- The separators. -/
def seps : List String := ["(", ")", ",", "&", ".."]

/-- A token that is not a separator. -/
def Plain (t : Tok) : Prop := ∀ v ∈ seps, t ≠ .str v

/-- The token list after all parentheses of `e` have been evaluated, the rightmost first. -/
def reduce (c : Ctx) : {l : Lvl} → Expr l → Except PyErr (List Tok)
  | _, .atom s => .ok [.str s]
  | _, .call f e => (reduce c e).bind fun ts => (evalToks c ts).bind fun l => (f.apply c.history l).bind fun v => .ok [v]
  | _, .group e => (reduce c e).bind fun ts => (evalToks c ts).bind fun l => .ok [.revs l]
  | _, .single p => reduce c p
  | _, .range a b => (reduce c b).bind fun tb => (reduce c a).bind fun ta => .ok (ta ++ .str ".." :: tb)
  | _, .rangeFrom a => (reduce c a).bind fun ta => .ok (ta ++ [.str ".."])
  | _, .rangeTo b => (reduce c b).bind fun tb => .ok (.str ".." :: tb)
  | _, .rangeAll => .ok [.str ".."]
  | _, .one t => reduce c t
  | _, .and t e => (reduce c e).bind fun te => (reduce c t).bind fun tt => .ok (tt ++ .str "&" :: te)
  | _, .all t => reduce c t
  | _, .or t e => (reduce c e).bind fun te => (reduce c t).bind fun tt => .ok (tt ++ .str "," :: te)

/-- The meaning of selectors and end points in the code. -/
def semOf (c : Ctx) : Sem :=
  { history := c.history
    select := fun s => (evalAtom c s).toOption
    point := fun s => (indexByToken c (.str s)).toOption
    pos := fun r => (historyIndex c.history r).toOption }

/-- A selector that is not itself a separator. -/
def Word (s : String) : Prop := s ∉ seps

/-- No parentheses. -/
def NoParen (ts : List Tok) : Prop := Tok.str "(" ∉ ts ∧ Tok.str ")" ∉ ts

/-- What `reduce` gives, by nonterminal. -/
def RedOK (c : Ctx) : (l : Lvl) → Expr l → Prop
  | .prim, e =>
    (∀ er, reduce c e = .error er → (e.meaning (semOf c)).revs = none ∧ (e.meaning (semOf c)).point = none) ∧
    (∀ ts, reduce c e = .ok ts → ∃ t, ts = [t] ∧ Plain t ∧ (evalTok c t).toOption = (e.meaning (semOf c)).revs ∧
      (indexByToken c t).toOption = (e.meaning (semOf c)).point)
  | .term, e =>
    (∀ er, reduce c e = .error er → (e.meaning (semOf c)).revs = none) ∧
    (∀ ts, reduce c e = .ok ts → NoParen ts ∧ Tok.str "," ∉ ts ∧ Tok.str "&" ∉ ts ∧
      (evalToks c ts).toOption = (e.meaning (semOf c)).revs)
  | .conj, e =>
    (∀ er, reduce c e = .error er → (e.meaning (semOf c)).revs = none) ∧
    (∀ ts, reduce c e = .ok ts → NoParen ts ∧ Tok.str "," ∉ ts ∧
      (evalToks c ts).toOption = (e.meaning (semOf c)).revs)
  | .disj, e =>
    (∀ er, reduce c e = .error er → (e.meaning (semOf c)).revs = none) ∧
    (∀ ts, reduce c e = .ok ts → NoParen ts ∧ (evalToks c ts).toOption = (e.meaning (semOf c)).revs)

theorem toOption_bind {α β : Type} (x : Except PyErr α) (f : α → Except PyErr β) :
    (x.bind f).toOption = x.toOption.bind (fun a => (f a).toOption) := by
  cases x <;> rfl

theorem bind_error {α β : Type} {x : Except PyErr α} {f : α → Except PyErr β} {e : PyErr}
    (h : x.bind f = .error e) : x = .error e ∨ ∃ a, x = .ok a ∧ f a = .error e := by
  cases x with
  | error e' => cases h; exact .inl rfl
  | ok a => exact .inr ⟨a, rfl, h⟩

theorem plain_ne {t : Tok} (h : Plain t) : t ≠ .str "(" ∧ t ≠ .str ")" ∧ t ≠ .str "," ∧ t ≠ .str "&" ∧ t ≠ .str ".." :=
  ⟨h _ (by simp [seps]), h _ (by simp [seps]), h _ (by simp [seps]), h _ (by simp [seps]), h _ (by simp [seps])⟩

theorem evalSimple_of {c : Ctx} {ts : List Tok} (hp : NoParen ts) (h1 : Tok.str "," ∉ ts) (h2 : Tok.str "&" ∉ ts) :
    evalToks c ts = evalSimple c ts :=
  evalToks_simple (fun h => hp.1 h.1) (splitFirst_none h1) (splitFirst_none h2)

theorem evalRange_points (c : Ctx) {a b : List Tok} (ha : a.length ≤ 1) (hb : b.length ≤ 1)
    (hd : Tok.str ".." ∉ b) :
    (evalRange c a b).toOption = ((indexByToken c (a.headD (.str "first"))).toOption).bind (fun i =>
      ((indexByToken c (b.headD (.str "last"))).toOption).map (fun j => between c.history i j)) := by
  unfold evalRange
  rw [if_neg hd, if_neg (not_not.2 ⟨ha, hb⟩)]
  cases indexByToken c (a.headD (.str "first")) with
  | error e => rfl
  | ok i =>
    dsimp only
    cases indexByToken c (b.headD (.str "last")) with
    | error e => rfl
    | ok j => simp [Except.toOption, sliceBetween_eq]

theorem evalToks_range (c : Ctx) {a b : List Tok} (ha : ∀ t ∈ a, Plain t) (hb : ∀ t ∈ b, Plain t)
    (hla : a.length ≤ 1) (hlb : b.length ≤ 1) :
    NoParen (a ++ .str ".." :: b) ∧ Tok.str "," ∉ (a ++ .str ".." :: b) ∧ Tok.str "&" ∉ (a ++ .str ".." :: b) ∧
    (evalToks c (a ++ .str ".." :: b)).toOption =
      ((indexByToken c (a.headD (.str "first"))).toOption).bind (fun i =>
        ((indexByToken c (b.headD (.str "last"))).toOption).map (fun j => between c.history i j)) := by
  have hn : ∀ v ∈ seps, v ≠ ".." → Tok.str v ∉ (a ++ .str ".." :: b) := by
    intro v hv hne hm
    simp only [List.mem_append, List.mem_cons, Tok.str.injEq] at hm
    rcases hm with h | h | h
    · exact ha _ h v hv rfl
    · exact hne h
    · exact hb _ h v hv rfl
  have h1 : NoParen (a ++ .str ".." :: b) := ⟨hn _ (by simp [seps]) (by decide), hn _ (by simp [seps]) (by decide)⟩
  have h2 := hn "," (by simp [seps]) (by decide)
  have h3 := hn "&" (by simp [seps]) (by decide)
  refine ⟨h1, h2, h3, ?_⟩
  rw [evalSimple_of h1 h2 h3]
  unfold evalSimple
  rw [splitFirst_append (fun h => ha _ h ".." (by simp [seps]) rfl)]
  exact evalRange_points c hla hlb (fun h => hb _ h ".." (by simp [seps]) rfl)

theorem evalToks_plain (c : Ctx) {t : Tok} (h : Plain t) : NoParen [t] ∧ Tok.str "," ∉ [t] ∧ Tok.str "&" ∉ [t] ∧
    evalToks c [t] = evalTok c t := by
  obtain ⟨p1, p2, p3, p4, p5⟩ := plain_ne h
  have h1 : NoParen [t] := ⟨by simpa using Ne.symm p1, by simpa using Ne.symm p2⟩
  have h2 : Tok.str "," ∉ [t] := by simpa using Ne.symm p3
  have h3 : Tok.str "&" ∉ [t] := by simpa using Ne.symm p4
  refine ⟨h1, h2, h3, ?_⟩
  rw [evalSimple_of h1 h2 h3]
  unfold evalSimple
  rw [splitFirst_none (by simpa using Ne.symm p5)]

theorem redOK (c : Ctx) : {l : Lvl} → (e : Expr l) → e.Atoms Word → RedOK c l e
  | _, .atom s, h => by
    refine ⟨fun er he => (by cases he), fun ts he => ?_⟩
    cases he
    refine ⟨_, rfl, ?_, rfl, rfl⟩
    intro v hv he
    cases he
    exact h hv
  | _, .call f e, h => by
    have ih := redOK c e h
    unfold RedOK at ih ⊢
    constructor
    · intro er he
      have hl : ((Expr.call f e).meaning (semOf c)).revs = none := by
        show ((e.meaning (semOf c)).revs.bind (fnMeaning c.history f)) = none
        rw [reduce] at he
        rcases bind_error he with he | ⟨ts, e1, he⟩
        · rw [ih.1 _ he]; rfl
        · rw [← (ih.2 ts e1).2]
          rcases bind_error he with he | ⟨l, e2, he⟩
          · rw [he]; rfl
          · rw [e2]
            rcases bind_error he with he | ⟨v, e3, he⟩
            · show fnMeaning c.history f l = none
              cases f with
              | first => cases hh : l.head? <;> simp [Fn.apply, hh, fnMeaning] at he ⊢
              | last => cases hh : l.getLast? <;> simp [Fn.apply, hh, fnMeaning] at he ⊢
              | not => cases he
              | reverse => cases he
            · cases he
      refine ⟨hl, ?_⟩
      show (if f = .first ∨ f = .last then _ else none) = none
      split
      · have : ((e.meaning (semOf c)).revs.bind (fnMeaning c.history f)) = none := hl
        show Option.bind ((e.meaning (semOf c)).revs.bind (fnMeaning c.history f)) _ = none
        rw [this]; rfl
      · rfl
    · intro ts he
      rw [reduce] at he
      obtain ⟨ts1, e1, he⟩ := bind_ok he
      obtain ⟨l, e2, he⟩ := bind_ok he
      obtain ⟨v, e3, he⟩ := bind_ok he
      cases he
      have hr := (ih.2 _ e1).2
      rw [e2] at hr
      have hm : (e.meaning (semOf c)).revs = some l := hr.symm
      refine ⟨v, rfl, ?_, ?_, ?_⟩
      · intro w _ hw
        subst hw
        cases f with
        | first => simp only [Fn.apply] at e3; split at e3 <;> cases e3
        | last => simp only [Fn.apply] at e3; split at e3 <;> cases e3
        | not => cases e3
        | reverse => cases e3
      · show _ = ((e.meaning (semOf c)).revs.bind (fnMeaning c.history f))
        rw [hm]
        cases f with
        | first =>
          cases hh : l.head? with
          | none => simp [Fn.apply, hh] at e3
          | some r =>
            simp only [Fn.apply, hh] at e3
            cases e3
            simp [fnMeaning, hh, evalTok, Except.toOption]
        | last =>
          cases hh : l.getLast? with
          | none => simp [Fn.apply, hh] at e3
          | some r =>
            simp only [Fn.apply, hh] at e3
            cases e3
            simp [fnMeaning, hh, evalTok, Except.toOption]
        | not => cases e3; rfl
        | reverse => cases e3; rfl
      · show _ = (if f = .first ∨ f = .last then
          ((e.meaning (semOf c)).revs.bind (fnMeaning c.history f)).bind (fun l => l.head?.bind (semOf c).pos) else none)
        rw [hm]
        cases f with
        | first =>
          cases hh : l.head? with
          | none => simp [Fn.apply, hh] at e3
          | some r =>
            simp only [Fn.apply, hh] at e3
            cases e3
            simp [fnMeaning, hh, indexByToken, semOf]
        | last =>
          cases hh : l.getLast? with
          | none => simp [Fn.apply, hh] at e3
          | some r =>
            simp only [Fn.apply, hh] at e3
            cases e3
            simp [fnMeaning, hh, indexByToken, semOf]
        | not => cases e3; rfl
        | reverse => cases e3; rfl
  | _, .group e, h => by
    have ih := redOK c e h
    unfold RedOK at ih ⊢
    constructor
    · intro er he
      refine ⟨?_, rfl⟩
      show (e.meaning (semOf c)).revs = none
      rw [reduce] at he
      rcases bind_error he with he | ⟨ts, e1, he⟩
      · exact ih.1 _ he
      · rw [← (ih.2 ts e1).2]
        rcases bind_error he with he | ⟨l, e2, he⟩
        · rw [he]; rfl
        · cases he
    · intro ts he
      rw [reduce] at he
      obtain ⟨ts1, e1, he⟩ := bind_ok he
      obtain ⟨l, e2, he⟩ := bind_ok he
      cases he
      have hr := (ih.2 _ e1).2
      rw [e2] at hr
      refine ⟨_, rfl, ?_, ?_, rfl⟩
      · intro w _ hw; cases hw
      · exact hr
  | _, .single p, h => by
    have ih := redOK c p h
    unfold RedOK at ih ⊢
    refine ⟨fun er he => (ih.1 er he).1, fun ts he => ?_⟩
    obtain ⟨t, rfl, hp, h1, h2⟩ := ih.2 ts he
    obtain ⟨q1, q2, q3, q4⟩ := evalToks_plain c hp
    exact ⟨q1, q2, q3, by rw [q4]; exact h1⟩
  | _, .range a b, h => by
    have ia := redOK c a h.1
    have ib := redOK c b h.2
    unfold RedOK at ia ib ⊢
    constructor
    · intro er he
      show (a.meaning (semOf c)).point.bind (fun i => (b.meaning (semOf c)).point.map (fun j => between c.history i j)) = none
      rw [reduce] at he
      rcases bind_error he with he | ⟨ts, e1, he⟩
      · rw [(ib.1 _ he).2]; cases (a.meaning (semOf c)).point <;> rfl
      · rcases bind_error he with he | ⟨l, e2, he⟩
        · rw [(ia.1 _ he).2]; rfl
        · cases he
    · intro ts he
      rw [reduce] at he
      obtain ⟨tb, e1, he⟩ := bind_ok he
      obtain ⟨ta, e2, he⟩ := bind_ok he
      cases he
      obtain ⟨x, rfl, px, _, qx⟩ := ia.2 _ e2
      obtain ⟨y, rfl, py, _, qy⟩ := ib.2 _ e1
      have := evalToks_range c (a := [x]) (b := [y]) (by simpa using px) (by simpa using py) (by simp) (by simp)
      refine ⟨this.1, this.2.1, this.2.2.1, this.2.2.2.trans ?_⟩
      show ((indexByToken c x).toOption).bind (fun i => ((indexByToken c y).toOption).map (fun j => between c.history i j)) = _
      rw [qx, qy]; rfl
  | _, .rangeFrom a, h => by
    have ia := redOK c a h
    unfold RedOK at ia ⊢
    constructor
    · intro er he
      show (a.meaning (semOf c)).point.bind (fun i => ((semOf c).point "last").map (fun j => between c.history i j)) = none
      rw [reduce] at he
      rcases bind_error he with he | ⟨l, e2, he⟩
      · rw [(ia.1 _ he).2]; rfl
      · cases he
    · intro ts he
      rw [reduce] at he
      obtain ⟨ta, e2, he⟩ := bind_ok he
      cases he
      obtain ⟨x, rfl, px, _, qx⟩ := ia.2 _ e2
      have := evalToks_range c (a := [x]) (b := []) (by simpa using px) (by simp) (by simp) (by simp)
      refine ⟨this.1, this.2.1, this.2.2.1, this.2.2.2.trans ?_⟩
      show ((indexByToken c x).toOption).bind (fun i => ((indexByToken c (.str "last")).toOption).map (fun j => between c.history i j)) = _
      rw [qx]; rfl
  | _, .rangeTo b, h => by
    have ib := redOK c b h
    unfold RedOK at ib ⊢
    constructor
    · intro er he
      show ((semOf c).point "first").bind (fun i => (b.meaning (semOf c)).point.map (fun j => between c.history i j)) = none
      rw [reduce] at he
      rcases bind_error he with he | ⟨l, e2, he⟩
      · rw [(ib.1 _ he).2]; cases (semOf c).point "first" <;> rfl
      · cases he
    · intro ts he
      rw [reduce] at he
      obtain ⟨tb, e2, he⟩ := bind_ok he
      cases he
      obtain ⟨x, rfl, px, _, qx⟩ := ib.2 _ e2
      have := evalToks_range c (a := []) (b := [x]) (by simp) (by simpa using px) (by simp) (by simp)
      refine ⟨this.1, this.2.1, this.2.2.1, this.2.2.2.trans ?_⟩
      show ((indexByToken c (.str "first")).toOption).bind (fun i => ((indexByToken c x).toOption).map (fun j => between c.history i j)) = _
      rw [qx]; rfl
  | _, .rangeAll, h => by
    unfold RedOK
    refine ⟨fun er he => (by cases he), fun ts he => ?_⟩
    cases he
    exact evalToks_range c (a := []) (b := []) (by simp) (by simp) (by simp) (by simp)
  | _, .one t, h => by
    have ih := redOK c t h
    unfold RedOK at ih ⊢
    exact ⟨ih.1, fun ts he => ⟨(ih.2 ts he).1, (ih.2 ts he).2.1, (ih.2 ts he).2.2.2⟩⟩
  | _, .and t e, h => by
    have it := redOK c t h.1
    have ie := redOK c e h.2
    unfold RedOK at it ie ⊢
    constructor
    · intro er he
      show (t.meaning (semOf c)).revs.bind (fun x => (e.meaning (semOf c)).revs.map (fun y => inter x y)) = none
      rw [reduce] at he
      rcases bind_error he with he | ⟨ts, e1, he⟩
      · rw [ie.1 _ he]; cases (t.meaning (semOf c)).revs <;> rfl
      · rcases bind_error he with he | ⟨l, e2, he⟩
        · rw [it.1 _ he]; rfl
        · cases he
    · intro ts he
      rw [reduce] at he
      obtain ⟨te, e1, he⟩ := bind_ok he
      obtain ⟨tt, e2, he⟩ := bind_ok he
      cases he
      obtain ⟨p1, p2, p3, p4⟩ := it.2 _ e2
      obtain ⟨q1, q2, q3⟩ := ie.2 _ e1
      have hnp : NoParen (tt ++ .str "&" :: te) := by
        constructor <;> simp [p1.1, p1.2, q1.1, q1.2]
      have hnc : Tok.str "," ∉ tt ++ .str "&" :: te := by simp [p2, q2]
      refine ⟨hnp, hnc, ?_⟩
      rw [evalToks_amp (fun h => hnp.1 h.1) (splitFirst_none hnc) (splitFirst_append p3), toOption_bind, p4]
      show _ = (t.meaning (semOf c)).revs.bind (fun x => (e.meaning (semOf c)).revs.map (fun y => inter x y))
      congr 1
      funext x
      rw [toOption_bind, q3]
      cases (e.meaning (semOf c)).revs with
      | none => rfl
      | some y => simp [Except.toOption, duplicates_eq]
  | _, .all t, h => by
    have ih := redOK c t h
    unfold RedOK at ih ⊢
    exact ⟨ih.1, fun ts he => ⟨(ih.2 ts he).1, (ih.2 ts he).2.2⟩⟩
  | _, .or t e, h => by
    have it := redOK c t h.1
    have ie := redOK c e h.2
    unfold RedOK at it ie ⊢
    constructor
    · intro er he
      show (t.meaning (semOf c)).revs.bind (fun x => (e.meaning (semOf c)).revs.map (fun y => union x y)) = none
      rw [reduce] at he
      rcases bind_error he with he | ⟨ts, e1, he⟩
      · rw [ie.1 _ he]; cases (t.meaning (semOf c)).revs <;> rfl
      · rcases bind_error he with he | ⟨l, e2, he⟩
        · rw [it.1 _ he]; rfl
        · cases he
    · intro ts he
      rw [reduce] at he
      obtain ⟨te, e1, he⟩ := bind_ok he
      obtain ⟨tt, e2, he⟩ := bind_ok he
      cases he
      obtain ⟨p1, p2, p3⟩ := it.2 _ e2
      obtain ⟨q1, q2⟩ := ie.2 _ e1
      have hnp : NoParen (tt ++ .str "," :: te) := by
        constructor <;> simp [p1.1, p1.2, q1.1, q1.2]
      refine ⟨hnp, ?_⟩
      rw [evalToks_comma (fun h => hnp.1 h.1) (splitFirst_append p2), toOption_bind, p3]
      show _ = (t.meaning (semOf c)).revs.bind (fun x => (e.meaning (semOf c)).revs.map (fun y => union x y))
      congr 1
      funext x
      rw [toOption_bind, q2]
      cases (e.meaning (semOf c)).revs with
      | none => rfl
      | some y => simp [Except.toOption, unique_append]

/-- No function name right before the expression. -/
def NoFn (pre : List Tok) : Prop := ∀ t, pre.getLast? = some t → Fn.ofTok t = none

theorem noFn_snoc (pre : List Tok) {t : Tok} (h : Fn.ofTok t = none) : NoFn (pre ++ [t]) := by
  intro x hx
  simp only [List.getLast?_append, List.getLast?_singleton, Option.some_or, Option.some.injEq] at hx
  rw [← hx]; exact h

theorem reduce_noParen (c : Ctx) {l : Lvl} (e : Expr l) (h : e.Atoms Word) {ts : List Tok} (he : reduce c e = .ok ts) :
    NoParen ts := by
  have := redOK c e h
  cases l with
  | prim =>
    obtain ⟨t, rfl, hp, _⟩ := this.2 ts he
    exact (evalToks_plain c hp).1
  | term => exact (this.2 ts he).1
  | conj => exact (this.2 ts he).1
  | disj => exact (this.2 ts he).1

/-- The words of an expression as tokens. -/
def toks {l : Lvl} (e : Expr l) : List Tok := e.words.map .str

theorem ofTok_fnName (f : Fn) : Fn.ofTok (.str (fnName f)) = some f := by cases f <;> rfl

theorem bind_assoc' {α β γ : Type} (x : Except PyErr α) (f : α → Except PyErr β) (g : β → Except PyErr γ) :
    (x.bind f).bind g = x.bind (fun a => (f a).bind g) := by cases x <;> rfl

theorem bind_congr' {α β : Type} {x : Except PyErr α} {f g : α → Except PyErr β} (h : ∀ a, x = .ok a → f a = g a) :
    x.bind f = x.bind g := by
  cases x with
  | error e => rfl
  | ok a => exact h a rfl

/-- Evaluating with an expression in a context, where no parenthesis opens after it, first evaluates its
parentheses. -/
theorem evalToks_context (c : Ctx) : {l : Lvl} → (e : Expr l) → e.Atoms Word → (pre post : List Tok) → NoFn pre →
    Tok.str "(" ∉ post →
    evalToks c (pre ++ toks e ++ post) = (reduce c e).bind (fun ts => evalToks c (pre ++ ts ++ post))
  | _, .atom s, _, pre, post, _, _ => rfl
  | _, .call f e, h, pre, post, hpre, hpost => by
    have e0 : pre ++ toks (.call f e) ++ post =
        (pre ++ [.str (fnName f), .str "("]) ++ toks e ++ (.str ")" :: post) := by
      simp [toks, Expr.words]
    have hp1 : NoFn (pre ++ [.str (fnName f), .str "("]) := by
      have := noFn_snoc (pre ++ [.str (fnName f)]) (t := .str "(") rfl
      simpa using this
    rw [e0, evalToks_context c e h _ _ hp1 (by simpa using hpost), reduce, bind_assoc']
    apply bind_congr'
    intro ts hts
    have hnp := reduce_noParen c e h hts
    have e1 : pre ++ [.str (fnName f), .str "("] ++ ts ++ (.str ")" :: post) =
        (pre ++ [.str (fnName f)]) ++ .str "(" :: (ts ++ .str ")" :: post) := by simp
    rw [e1, evalToks_paren ⟨by simp, by simp⟩ (splitLast_append (by simp [hnp.1, hpost]))
      (splitFirst_append hnp.2), bind_assoc']
    apply bind_congr'
    intro l _
    unfold closeParen
    rw [List.getLast?_append, List.getLast?_singleton, Option.some_or]
    dsimp only
    rw [ofTok_fnName]
    dsimp only
    rw [List.dropLast_concat]
    cases Fn.apply c.history f l <;> rfl
  | _, .group e, h, pre, post, hpre, hpost => by
    have e0 : pre ++ toks (.group e) ++ post = (pre ++ [.str "("]) ++ toks e ++ (.str ")" :: post) := by
      simp [toks, Expr.words]
    rw [e0, evalToks_context c e h _ _ (noFn_snoc _ rfl) (by simpa using hpost), reduce, bind_assoc']
    apply bind_congr'
    intro ts hts
    have hnp := reduce_noParen c e h hts
    have e1 : pre ++ [.str "("] ++ ts ++ (.str ")" :: post) = pre ++ .str "(" :: (ts ++ .str ")" :: post) := by simp
    rw [e1, evalToks_paren ⟨by simp, by simp⟩ (splitLast_append (by simp [hnp.1, hpost]))
      (splitFirst_append hnp.2), bind_assoc']
    apply bind_congr'
    intro l _
    unfold closeParen
    cases hg : pre.getLast? with
    | none => rfl
    | some t => dsimp only; rw [hpre t hg]; rfl
  | _, .single p, h, pre, post, hpre, hpost => evalToks_context c p h pre post hpre hpost
  | _, .range a b, h, pre, post, hpre, hpost => by
    have e0 : pre ++ toks (.range a b) ++ post = (pre ++ toks a ++ [.str ".."]) ++ toks b ++ post := by
      simp [toks, Expr.words]
    rw [e0, evalToks_context c b h.2 _ _ (noFn_snoc _ rfl) hpost, reduce, bind_assoc']
    apply bind_congr'
    intro tb htb
    have hnp := reduce_noParen c b h.2 htb
    have e1 : (pre ++ toks a ++ [.str ".."]) ++ tb ++ post = pre ++ toks a ++ (.str ".." :: tb ++ post) := by simp
    rw [e1, evalToks_context c a h.1 _ _ hpre (by simp [hnp.1, hpost]), bind_assoc']
    apply bind_congr'
    intro ta _
    show _ = evalToks c _
    simp
  | _, .rangeFrom a, h, pre, post, hpre, hpost => by
    have e0 : pre ++ toks (.rangeFrom a) ++ post = pre ++ toks a ++ (.str ".." :: post) := by
      simp [toks, Expr.words]
    rw [e0, evalToks_context c a h _ _ hpre (by simp [hpost]), reduce, bind_assoc']
    apply bind_congr'
    intro ta _
    show _ = evalToks c _
    simp
  | _, .rangeTo b, h, pre, post, hpre, hpost => by
    have e0 : pre ++ toks (.rangeTo b) ++ post = (pre ++ [.str ".."]) ++ toks b ++ post := by
      simp [toks, Expr.words]
    rw [e0, evalToks_context c b h _ _ (noFn_snoc _ rfl) hpost, reduce, bind_assoc']
    apply bind_congr'
    intro ta _
    show _ = evalToks c _
    simp
  | _, .rangeAll, _, pre, post, _, _ => rfl
  | _, .one t, h, pre, post, hpre, hpost => evalToks_context c t h pre post hpre hpost
  | _, .and t e, h, pre, post, hpre, hpost => by
    have e0 : pre ++ toks (.and t e) ++ post = (pre ++ toks t ++ [.str "&"]) ++ toks e ++ post := by
      simp [toks, Expr.words]
    rw [e0, evalToks_context c e h.2 _ _ (noFn_snoc _ rfl) hpost, reduce, bind_assoc']
    apply bind_congr'
    intro tb htb
    have hnp := reduce_noParen c e h.2 htb
    have e1 : (pre ++ toks t ++ [.str "&"]) ++ tb ++ post = pre ++ toks t ++ (.str "&" :: tb ++ post) := by simp
    rw [e1, evalToks_context c t h.1 _ _ hpre (by simp [hnp.1, hpost]), bind_assoc']
    apply bind_congr'
    intro ta _
    show _ = evalToks c _
    simp
  | _, .all t, h, pre, post, hpre, hpost => evalToks_context c t h pre post hpre hpost
  | _, .or t e, h, pre, post, hpre, hpost => by
    have e0 : pre ++ toks (.or t e) ++ post = (pre ++ toks t ++ [.str ","]) ++ toks e ++ post := by
      simp [toks, Expr.words]
    rw [e0, evalToks_context c e h.2 _ _ (noFn_snoc _ rfl) hpost, reduce, bind_assoc']
    apply bind_congr'
    intro tb htb
    have hnp := reduce_noParen c e h.2 htb
    have e1 : (pre ++ toks t ++ [.str ","]) ++ tb ++ post = pre ++ toks t ++ (.str "," :: tb ++ post) := by simp
    rw [e1, evalToks_context c t h.1 _ _ hpre (by simp [hnp.1, hpost]), bind_assoc']
    apply bind_congr'
    intro ta _
    show _ = evalToks c _
    simp

theorem evalToks_meaning (c : Ctx) (e : Expr .disj) (h : e.Atoms Word) :
    (evalToks c (toks e)).toOption = (e.meaning (semOf c)).revs := by
  have := evalToks_context c e h [] [] (by intro t ht; cases ht) (by simp)
  rw [List.nil_append, List.append_nil] at this
  rw [this, toOption_bind]
  have hr := redOK c e h
  cases hre : reduce c e with
  | error er => rw [hr.1 er hre]; rfl
  | ok ts =>
    show (evalToks c ([] ++ ts ++ [])).toOption = _
    rw [List.nil_append, List.append_nil]
    exact (hr.2 ts hre).2

end Verif.Repo
