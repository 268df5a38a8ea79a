import Verif.Model.Life
import Mathlib.Data.List.Induction
/-!
# C98: a single daemon
-/
namespace Verif.Life
open Verif

/-- The process has not ended. -/
def Alive (s : State) (i : Nat) : Prop := ∃ p, s.procs[i]? = some p ∧ ∀ c, p ≠ .ended c

/-- The process took the lock for this base directory and has not ended. -/
def Has (s : State) (i : Nat) (base : String) : Prop := s.procs[i]? = some (.locked base) ∨ ∃ b, s.procs[i]? = some (.working base b)

/-- No reload finds another base directory than the one the daemon was started with. -/
def Stays : State → List Ev → Prop
  | _, [] => True
  | s, e :: es => (∀ i base ok home b, e = .reload i base ok → s.procs[i]? = some (.working home b) → base = home) ∧ Stays (step s e) es

theorem lockFile_inj {a b : String} (h : lockFile a = lockFile b) : a = b := by
  unfold lockFile at h
  have := congrArg String.toList h
  rw [String.toList_append, String.toList_append] at this
  exact String.toList_inj.1 (List.append_cancel_right this)

/-- The table of locks agrees with the processes. -/
structure Inv (s : State) : Prop where
  sound : ∀ f i, s.locks.get? f = some i → ∃ b, f = lockFile b ∧ Has s i b
  complete : ∀ i b, Has s i b → s.locks.get? (lockFile b) = some i
  nodup : s.locks.keys.Nodup
  started : ∀ i b, (i, b) ∈ s.started → i < s.procs.length

theorem Inv.init : Inv .init := ⟨by simp [State.init], by simp [State.init, Has], by simp [State.init, Dict.keys], by simp [State.init]⟩

theorem Has.lt {s : State} {i : Nat} {b : String} (h : Has s i b) : i < s.procs.length := by
  rcases h with h | ⟨_, h⟩ <;> exact (List.getElem?_eq_some_iff.1 h).1

theorem Has.fun {s : State} {i : Nat} {a b : String} (h : Has s i a) (h' : Has s i b) : a = b := by
  rcases h with h | ⟨_, h⟩ <;> rcases h' with h' | ⟨_, h'⟩ <;> rw [h] at h' <;> cases h' <;> rfl

/-- Changing process `i` does not matter for others. -/
theorem has_set_ne {s : State} {i j : Nat} {b : String} {p : Phase} {locks : Dict String Nat} {st : List (Nat × String)} (h : j ≠ i) :
    Has ⟨s.procs.set i p, locks, st⟩ j b ↔ Has s j b := by
  unfold Has
  simp only [List.getElem?_set_ne (Ne.symm h)]

theorem Inv.end_ {s : State} (h : Inv s) (i code : Nat) : Inv (s.end_ i code) := by
  have hnot : ∀ b, ¬ Has (s.end_ i code) i b := by
    intro b hb
    unfold Has State.end_ at hb
    simp only [List.getElem?_set] at hb
    rcases hb with hb | ⟨_, hb⟩ <;> simp at hb
  have hget : ∀ f j, (s.end_ i code).locks.get? f = some j ↔ s.locks.get? f = some j ∧ j ≠ i := by
    intro f j
    have hnd : (s.end_ i code).locks.keys.Nodup := Dict.nodup_filter h.nodup _
    rw [← Dict.mem_iff_get? hnd, ← Dict.mem_iff_get? h.nodup]
    unfold State.end_
    rw [List.mem_filter]
    simp
  refine ⟨?_, ?_, Dict.nodup_filter h.nodup _, ?_⟩
  · intro f j hj
    obtain ⟨h1, h2⟩ := (hget f j).1 hj
    obtain ⟨b, hb, hh⟩ := h.sound f j h1
    exact ⟨b, hb, (has_set_ne h2).2 hh⟩
  · intro j b hb
    have hne : j ≠ i := fun e => hnot b (e ▸ hb)
    exact (hget _ _).2 ⟨h.complete j b ((has_set_ne hne).1 hb), hne⟩
  · intro j b hj
    have := h.started j b hj
    simpa [State.end_] using this

theorem Inv.append {s : State} (h : Inv s) (p : Phase) (hp : ∀ b, p ≠ .locked b ∧ ∀ c, p ≠ .working b c) :
    Inv { s with procs := s.procs ++ [p] } := by
  have key : ∀ j b, Has { s with procs := s.procs ++ [p] } j b ↔ Has s j b := by
    intro j b
    unfold Has
    dsimp only
    by_cases hj : j < s.procs.length
    · rw [List.getElem?_append_left hj]
    · have : s.procs[j]? = none := List.getElem?_eq_none (by omega)
      rw [this, List.getElem?_append_right (by omega)]
      cases hk : j - s.procs.length with
      | zero =>
        simp only [List.getElem?_cons_zero, Option.some.injEq, reduceCtorEq, exists_false, or_self, iff_false]
        rintro (h | ⟨c, h⟩)
        · exact (hp b).1 h
        · exact (hp b).2 c h
      | succ k => simp
  refine ⟨fun f i hf => ?_, fun i b hi => h.complete i b ((key i b).1 hi), h.nodup, fun i b hi => ?_⟩
  · obtain ⟨b, h1, h2⟩ := h.sound f i hf
    exact ⟨b, h1, (key i b).2 h2⟩
  · have := h.started i b hi
    simp; omega

/-- A process goes on with the lock it has. -/
theorem Inv.keep {s : State} (h : Inv s) {i : Nat} {base : String} {p : Phase} (hi : Has s i base) (hp : p = .locked base ∨ ∃ b, p = .working base b)
    {st : List (Nat × String)} (hst : ∀ j b, (j, b) ∈ st → j < s.procs.length) : Inv ⟨s.procs.set i p, s.locks, st⟩ := by
  have hlt := hi.lt
  have hself : ∀ b, Has ⟨s.procs.set i p, s.locks, st⟩ i b ↔ b = base := by
    intro b
    unfold Has
    simp only [List.getElem?_set_self hlt, Option.some.injEq]
    rcases hp with rfl | ⟨c, rfl⟩
    · simp [eq_comm]
    · simp [eq_comm]
  have key : ∀ j b, Has ⟨s.procs.set i p, s.locks, st⟩ j b ↔ Has s j b := by
    intro j b
    by_cases hj : j = i
    · subst hj
      rw [hself]
      exact ⟨fun e => e ▸ hi, fun h' => h'.fun hi⟩
    · exact has_set_ne hj
  refine ⟨fun f j hf => ?_, fun j b hj => h.complete j b ((key j b).1 hj), h.nodup, fun j b hj => ?_⟩
  · obtain ⟨b, h1, h2⟩ := h.sound f j hf
    exact ⟨b, h1, (key j b).2 h2⟩
  · have := hst j b hj
    simpa using this

theorem Inv.apply {s : State} (h : Inv s) {i : Nat} {home : String} (hi : Has s i home) (base : String) (code : Nat) (ok : Bool) : Inv (s.apply i home base code ok) := by
  have hst : ∀ j b, (j, b) ∈ (i, base) :: s.started → j < s.procs.length := by
    intro j b hj
    rcases List.mem_cons.1 hj with hj | hj
    · cases hj; exact hi.lt
    · exact h.started j b hj
  unfold State.apply
  split
  · exact h.keep hi (.inr ⟨base, rfl⟩) hst
  · have := h.end_ i code
    refine ⟨this.sound, this.complete, this.nodup, ?_⟩
    intro j b hj
    have := hst j b hj
    simpa [State.end_] using this

theorem Inv.step {s : State} (h : Inv s) (e : Ev) : Inv (Life.step s e) := by
  cases e with
  | launch base =>
    cases base with
    | none => exact h.append _ (by simp)
    | some b => exact h.append _ (by simp)
  | lock i =>
    simp only [Life.step]
    split
    · rename_i base hi
      unfold State.tryLock
      have hlt := (List.getElem?_eq_some_iff.1 hi).1
      split
      · rename_i hnone
        have hself : ∀ b, Has ⟨s.procs.set i (.locked base), s.locks.set (lockFile base) i, s.started⟩ i b ↔ b = base := by
          intro b
          unfold Has
          simp [List.getElem?_set_self hlt, eq_comm]
        refine ⟨fun f j hf => ?_, fun j b hj => ?_, Dict.nodup_set h.nodup _ _, fun j b hj => by simpa using h.started j b hj⟩
        · dsimp only at hf
          rw [Dict.get?_set] at hf
          split at hf
          · rename_i hf'
            cases hf
            exact ⟨base, hf', (hself base).2 rfl⟩
          · obtain ⟨b, h1, h2⟩ := h.sound f j hf
            refine ⟨b, h1, (has_set_ne ?_).2 h2⟩
            rintro rfl
            rcases h2 with h2 | ⟨_, h2⟩ <;> rw [hi] at h2 <;> cases h2
        · dsimp only
          rw [Dict.get?_set]
          by_cases hji : j = i
          · subst hji
            rw [(hself b).1 hj, if_pos rfl]
          · have hb := h.complete j b ((has_set_ne hji).1 hj)
            rw [if_neg]
            · exact hb
            · intro e
              rw [e, hnone] at hb
              cases hb
      · rename_i j hj
        split
        · rename_i e
          subst e
          obtain ⟨b, h1, h2⟩ := h.sound _ _ hj
          exfalso
          rcases h2 with h2 | ⟨_, h2⟩ <;> rw [hi] at h2 <;> cases h2
        · exact h.end_ i 69
    · exact h
  | apply i ok =>
    simp only [Life.step]
    split
    · rename_i base hi
      exact h.apply (.inl hi) base 1 ok
    · exact h
  | reload i base ok =>
    simp only [Life.step]
    split
    · rename_i home b hi
      exact h.apply (.inr ⟨b, hi⟩) base 0 ok
    · exact h
  | die i code =>
    simp only [Life.step]
    split
    · exact h
    · exact h.end_ i code
    · exact h

theorem Inv.runs {s : State} (h : Inv s) (es : List Ev) : Inv (Life.runs s es) := by
  unfold Life.runs
  induction es generalizing s with
  | nil => exact h
  | cons e es ih => exact ih (h.step e)

/-- Whoever started jobs somewhere has ended or has the lock for that directory. -/
def Held (s : State) : Prop := ∀ i b, (i, b) ∈ s.started → (∃ c, s.procs[i]? = some (.ended c)) ∨ s.procs[i]? = some (.working b b)

theorem step_other {s : State} {e : Ev} {i : Nat} {p : Phase} (hi : s.procs[i]? = some p) :
    (Life.step s e).procs[i]? = some p ∨ e = .lock i ∨ (∃ ok, e = .apply i ok) ∨ (∃ b ok, e = .reload i b ok) ∨ ∃ c, e = .die i c := by
  have hlt := (List.getElem?_eq_some_iff.1 hi).1
  have hset : ∀ (j : Nat) (q : Phase), j ≠ i → (s.procs.set j q)[i]? = some p := fun j q hj => by
    rw [List.getElem?_set_ne hj]; exact hi
  cases e with
  | launch base => cases base <;> exact .inl (by simp only [Life.step]; rw [List.getElem?_append_left hlt]; exact hi)
  | lock j =>
    by_cases hj : j = i
    · exact .inr (.inl (by rw [hj]))
    · left
      simp only [Life.step]
      split
      · unfold State.tryLock
        split
        · exact hset _ _ hj
        · split <;> exact hset _ _ hj
      · exact hi
  | apply j ok =>
    by_cases hj : j = i
    · exact .inr (.inr (.inl ⟨ok, by rw [hj]⟩))
    · left
      simp only [Life.step]
      split
      · unfold State.apply; split <;> exact hset _ _ hj
      · exact hi
  | reload j b ok =>
    by_cases hj : j = i
    · exact .inr (.inr (.inr (.inl ⟨b, ok, by rw [hj]⟩)))
    · left
      simp only [Life.step]
      split
      · unfold State.apply; split <;> exact hset _ _ hj
      · exact hi
  | die j c =>
    by_cases hj : j = i
    · exact .inr (.inr (.inr (.inr ⟨c, by rw [hj]⟩)))
    · left
      simp only [Life.step]
      split
      · exact hi
      · exact hset _ _ hj
      · exact hi

theorem ended_stays {s : State} {e : Ev} {i c : Nat} (hi : s.procs[i]? = some (.ended c)) : (Life.step s e).procs[i]? = some (.ended c) := by
  rcases step_other (e := e) hi with h | h | ⟨_, h⟩ | ⟨_, _, h⟩ | ⟨_, h⟩
  · exact h
  all_goals subst h; simp only [Life.step, hi]

theorem Held.step {s : State} (h : Held s) (e : Ev)
    (hst : ∀ i base ok home b, e = .reload i base ok → s.procs[i]? = some (.working home b) → base = home) : Held (Life.step s e) := by
  have old : ∀ i b, (i, b) ∈ s.started → (∃ c, (Life.step s e).procs[i]? = some (.ended c)) ∨ (Life.step s e).procs[i]? = some (.working b b) := by
    intro i b hi
    rcases h i b hi with ⟨c, hc⟩ | hw
    · exact .inl ⟨c, ended_stays hc⟩
    · have hlt := (List.getElem?_eq_some_iff.1 hw).1
      rcases step_other (e := e) hw with h | h | ⟨_, h⟩ | ⟨b', ok, h⟩ | ⟨c, h⟩
      · exact .inr h
      · subst h; right; simp only [Life.step, hw]
      · subst h; right; simp only [Life.step, hw]
      · have hb := hst i b' ok b b h hw
        subst h
        subst hb
        simp only [Life.step, hw, State.apply]
        split
        · right; simp only [List.getElem?_set_self hlt]
        · left; exact ⟨0, by simp only [State.end_, List.getElem?_set_self hlt]⟩
      · subst h
        left
        exact ⟨c, by simp only [Life.step, hw, State.end_, List.getElem?_set_self hlt]⟩
  have new : ∀ i home base code ok, Has s i home → base = home → ∀ j b, (j, b) ∈ (s.apply i home base code ok).started → (j, b) ∉ s.started →
      (∃ c, (s.apply i home base code ok).procs[j]? = some (.ended c)) ∨ (s.apply i home base code ok).procs[j]? = some (.working b b) := by
    intro i home base code ok hi hb j b hj hn
    subst hb
    unfold State.apply at hj ⊢
    split at hj
    · rename_i hok
      rw [if_pos hok]
      rcases List.mem_cons.1 hj with hj | hj
      · cases hj; right; simp only [List.getElem?_set_self hi.lt]
      · exact absurd hj hn
    · rename_i hok
      rw [if_neg hok]
      rcases List.mem_cons.1 hj with hj | hj
      · cases hj; left; exact ⟨code, by simp only [State.end_, List.getElem?_set_self hi.lt]⟩
      · exact absurd hj hn
  intro i b hi
  by_cases hold : (i, b) ∈ s.started
  · exact old i b hold
  · cases e with
    | launch base => cases base <;> exact absurd hi hold
    | lock j =>
      exfalso
      simp only [Life.step] at hi
      split at hi
      · unfold State.tryLock at hi
        split at hi
        · exact hold hi
        · split at hi <;> exact hold hi
      · exact hold hi
    | apply j ok =>
      simp only [Life.step] at hi ⊢
      split at hi
      · rename_i base hj
        exact new j base base 1 ok (.inl hj) rfl i b hi hold
      · exact absurd hi hold
    | reload j base ok =>
      have hb := hst j base ok
      simp only [Life.step] at hi ⊢
      split at hi
      · rename_i home b' hj
        exact new j home base 0 ok (.inr ⟨b', hj⟩) (hb home b' rfl hj) i b hi hold
      · exact absurd hi hold
    | die j c =>
      simp only [Life.step] at hi
      split at hi <;> exact absurd hi hold

theorem Held.runs {s : State} (h : Held s) : ∀ (es : List Ev), Stays s es → Held (Life.runs s es) := by
  intro es
  induction es generalizing s with
  | nil => intro _; exact h
  | cons e es ih => intro hs; exact ih (h.step e hs.1) hs.2

/-! ## C98 -/

/-- **C98** At any time at most one living daemon has started jobs in a base directory, whatever daemons are started, killed and reloaded, as long as
reloads do not change the base directory. -/
theorem C98_single (es : List Ev) (hs : Stays .init es) (i j : Nat) (b : String) (hi : (i, b) ∈ (runs .init es).started)
    (hj : (j, b) ∈ (runs .init es).started) (hai : Alive (runs .init es) i) (haj : Alive (runs .init es) j) : i = j := by
  have hinv := Inv.init.runs es
  have hheld : Held (runs .init es) := Held.runs (s := .init) (by intro i b h; simp [State.init] at h) es hs
  have key : ∀ k, (k, b) ∈ (runs .init es).started → Alive (runs .init es) k → (runs .init es).locks.get? (lockFile b) = some k := by
    intro k hk ⟨p, hp, hne⟩
    rcases hheld k b hk with ⟨c, hc⟩ | hw
    · rw [hp] at hc; cases hc; exact absurd rfl (hne c)
    · exact hinv.complete k b (.inr ⟨b, hw⟩)
  have h1 := key i hi hai
  have h2 := key j hj haj
  rw [h1] at h2
  exact Option.some.inj h2

/-- **C98** A daemon that finds the lock taken ends with exit code 69, and never starts a job; it leaves everything else alone. -/
theorem C98_refused (es : List Ev) (i j : Nat) (b : String) (hi : (runs .init es).procs[i]? = some (.configured b)) (hij : Has (runs .init es) j b)
    (es' : List Ev) :
    (runs .init (es ++ .lock i :: es')).procs[i]? = some (.ended 69) ∧
    (∀ c, (i, c) ∈ (runs .init (es ++ .lock i :: es')).started → (i, c) ∈ (runs .init es).started) ∧
    (∀ k, k ≠ i → (step (runs .init es) (.lock i)).procs[k]? = (runs .init es).procs[k]?) ∧
    ∀ k c, Has (step (runs .init es) (.lock i)) k c ↔ Has (runs .init es) k c := by
  have hinv := Inv.init.runs es
  have hsplit : runs .init (es ++ .lock i :: es') = runs (step (runs .init es) (.lock i)) es' := by
    unfold runs
    rw [List.foldl_append]; rfl
  rw [hsplit]
  generalize runs .init es = s at *
  have hne : j ≠ i := by
    rintro rfl
    rcases hij with h | ⟨_, h⟩ <;> rw [hi] at h <;> cases h
  have hstep : step s (.lock i) = s.end_ i 69 := by
    simp only [step, hi, State.tryLock, hinv.complete j b hij, if_neg hne]
  have hlt := (List.getElem?_eq_some_iff.1 hi).1
  have hend : (step s (.lock i)).procs[i]? = some (.ended 69) := by
    rw [hstep]; simp only [State.end_, List.getElem?_set_self hlt]
  refine ⟨?_, ?_, ?_, ?_⟩
  · clear hsplit
    generalize step s (.lock i) = t at hend
    unfold runs
    induction es' generalizing t with
    | nil => exact hend
    | cons e es' ih => exact ih _ (ended_stays hend)
  · have h0 : ∀ c, (i, c) ∈ (step s (.lock i)).started → (i, c) ∈ s.started := by intro c h; rw [hstep] at h; exact h
    clear hsplit
    generalize step s (.lock i) = t at hend h0
    unfold runs
    induction es' generalizing t with
    | nil => exact h0
    | cons e es' ih =>
      refine ih _ (ended_stays hend) ?_
      intro c hc
      refine h0 c ?_
      have happ : ∀ k home base code ok, k ≠ i → (i, c) ∈ (t.apply k home base code ok).started → (i, c) ∈ t.started := by
        intro k home base code ok hk h
        unfold State.apply at h
        have hm : (i, c) ∈ (k, base) :: t.started := by split at h <;> exact h
        rcases List.mem_cons.1 hm with h | h
        · cases h; exact absurd rfl hk
        · exact h
      cases e with
      | launch base => cases base <;> exact hc
      | lock k =>
        simp only [step] at hc
        split at hc
        · unfold State.tryLock at hc
          split at hc
          · exact hc
          · split at hc <;> exact hc
        · exact hc
      | apply k ok =>
        simp only [step] at hc
        split at hc
        · rename_i hk
          exact happ k _ _ _ ok (by rintro rfl; rw [hend] at hk; cases hk) hc
        · exact hc
      | reload k base ok =>
        simp only [step] at hc
        split at hc
        · rename_i hk
          exact happ k _ _ _ ok (by rintro rfl; rw [hend] at hk; cases hk) hc
        · exact hc
      | die k c' =>
        simp only [step] at hc
        split at hc <;> exact hc
  · intro k hk
    rw [hstep]
    simp only [State.end_, List.getElem?_set_ne (Ne.symm hk)]
  · intro k c
    rw [hstep]
    by_cases hk : k = i
    · subst hk
      constructor
      · intro h
        exfalso
        unfold Has State.end_ at h
        simp only [List.getElem?_set_self hlt] at h
        rcases h with h | ⟨_, h⟩ <;> cases h
      · intro h
        exfalso
        rcases h with h | ⟨_, h⟩ <;> rw [hi] at h <;> cases h
    · exact has_set_ne hk

/-- **C98** As soon as no living daemon has the lock (all of them ended, in whatever way), a daemon that has read its configuration gets the lock and can
start its jobs. -/
theorem C98_restart (es : List Ev) (i : Nat) (b : String) (hi : (runs .init es).procs[i]? = some (.configured b))
    (hfree : ∀ j, ¬ Has (runs .init es) j b) :
    (runs .init (es ++ [.lock i, .apply i true])).procs[i]? = some (.working b b) ∧
    (i, b) ∈ (runs .init (es ++ [.lock i, .apply i true])).started := by
  have hinv := Inv.init.runs es
  have hsplit : runs .init (es ++ [.lock i, .apply i true]) = step (step (runs .init es) (.lock i)) (.apply i true) := by
    unfold runs
    rw [List.foldl_append]; rfl
  rw [hsplit]
  generalize runs .init es = s at *
  have hlt := (List.getElem?_eq_some_iff.1 hi).1
  have hnone : s.locks.get? (lockFile b) = none := by
    cases h : s.locks.get? (lockFile b) with
    | none => rfl
    | some j =>
      obtain ⟨b', h1, h2⟩ := hinv.sound _ _ h
      rw [← lockFile_inj h1] at h2
      exact absurd h2 (hfree j)
  have h1 : step s (.lock i) = { s with procs := s.procs.set i (.locked b), locks := s.locks.set (lockFile b) i } := by
    simp only [step, hi, State.tryLock, hnone]
  rw [h1]
  simp [step, List.getElem?_set_self hlt, State.apply, List.getElem?_set_self, hlt]

/-- **C98** The proviso is needed: after a reload that changes the base directory, a second daemon can work in the same directory. -/
theorem C98_moved : ∃ (es : List Ev) (i j : Nat) (b : String), i ≠ j ∧ (runs .init es).procs[i]? = some (Phase.working "/a" b) ∧
    (runs .init es).procs[j]? = some (Phase.working b b) :=
  ⟨[.launch (some "/a"), .lock 0, .apply 0 true, .reload 0 "/b" true, .launch (some "/b"), .lock 1, .apply 1 true], 0, 1, "/b",
    by decide, by decide +kernel, by decide +kernel⟩

/-! ## C111 -/

/-- Nobody kills the process or tells it to end. -/
def NotKilled (es : List Ev) (i : Nat) : Prop := ∀ c, Ev.die i c ∉ es

/-- At some time the process had started completely. -/
def WasWorking (es : List Ev) (i : Nat) : Prop := ∃ es1 es2 home base, es = es1 ++ es2 ∧ (runs .init es1).procs[i]? = some (.working home base)

theorem runs_snoc (es : List Ev) (e : Ev) : runs .init (es ++ [e]) = step (runs .init es) e := by
  unfold runs
  rw [List.foldl_append]; rfl

theorem WasWorking.append {es : List Ev} {i : Nat} (h : WasWorking es i) (es' : List Ev) : WasWorking (es ++ es') i := by
  obtain ⟨es1, es2, home, base, rfl, h⟩ := h
  exact ⟨es1, es2 ++ es', home, base, by simp, h⟩

/-- One event ends a process. -/
theorem step_ends {s : State} {e : Ev} {i c : Nat} (hn : ∀ c, s.procs[i]? ≠ some (.ended c)) (h : (step s e).procs[i]? = some (.ended c)) :
    c = 1 ∨ c = 69 ∨ (∃ home base, s.procs[i]? = some (.working home base)) ∨ e = .die i c := by
  have hset : ∀ {k : Nat} {p : Phase} {l : List Phase}, (∀ c, l[i]? ≠ some (.ended c)) → (l.set k p)[i]? = some (.ended c) → k = i ∧ p = .ended c := by
    intro k p l hl h'
    by_cases hk : k = i
    · subst hk
      rw [List.getElem?_set] at h'
      split at h'
      · split at h'
        · cases h'; exact ⟨rfl, rfl⟩
        · cases h'
      · rename_i h; exact absurd rfl h
    · rw [List.getElem?_set_ne hk] at h'
      exact absurd h' (hl c)
  cases e with
  | launch base =>
    have key : ∀ p : Phase, (s.procs ++ [p])[i]? = some (.ended c) → p = .ended c := by
      intro p hp
      rw [List.getElem?_append] at hp
      split at hp
      · exact absurd hp (hn c)
      · rw [List.getElem?_singleton] at hp
        split at hp
        · cases hp; rfl
        · cases hp
    cases base with
    | none => have := key _ h; cases this; exact .inl rfl
    | some b => have := key _ h; cases this
  | lock k =>
    simp only [step] at h
    split at h
    · unfold State.tryLock at h
      split at h
      · have := (hset hn h).2; cases this
      · split at h
        · have := (hset hn h).2; cases this
        · have := (hset hn h).2; cases this; exact .inr (.inl rfl)
    · exact absurd h (hn c)
  | apply k ok =>
    simp only [step] at h
    split at h
    · unfold State.apply at h
      split at h
      · have := (hset hn h).2; cases this
      · have := (hset hn h).2; cases this; exact .inl rfl
    · exact absurd h (hn c)
  | reload k base ok =>
    simp only [step] at h
    split at h
    · rename_i home b' hk
      unfold State.apply at h
      split at h
      · have := (hset hn h).2; cases this
      · have := (hset hn h).1; subst this; exact .inr (.inr (.inl ⟨home, b', hk⟩))
    · exact absurd h (hn c)
  | die k code =>
    simp only [step] at h
    split at h
    · exact absurd h (hn c)
    · obtain ⟨rfl, h2⟩ := hset hn h
      cases h2; exact .inr (.inr (.inr rfl))
    · exact absurd h (hn c)

/-- **C111 (partial)** A daemon that ends by itself before it has started completely (no configuration, a wrong one, the lock is
taken) ends with exit code 1 or 69.  For a reload it is false: `C111_false_reload`. -/
theorem C111_start_partial (es : List Ev) (i c : Nat) (h : (runs .init es).procs[i]? = some (.ended c)) (hk : NotKilled es i)
    (hw : ¬ WasWorking es i) : c = 1 ∨ c = 69 := by
  suffices key : ∀ es : List Ev, ∀ c, NotKilled es i → ¬ WasWorking es i → (runs .init es).procs[i]? = some (.ended c) → c = 1 ∨ c = 69 from
    key es c hk hw h
  intro es
  induction es using List.reverseRecOn with
  | nil => intro c _ _ h; simp [runs, State.init] at h
  | append_singleton es e ih =>
    intro c hk hw h
    rw [runs_snoc] at h
    by_cases hn : ∃ c', (runs .init es).procs[i]? = some (.ended c')
    · obtain ⟨c', hc'⟩ := hn
      have := ended_stays (e := e) hc'
      rw [this] at h
      cases h
      exact ih c (fun x hx => hk x (List.mem_append_left _ hx)) (fun hx => hw (hx.append _)) hc'
    · rcases step_ends (fun c hc => hn ⟨c, hc⟩) h with h | h | ⟨home, base, h⟩ | h
      · exact .inl h
      · exact .inr h
      · exact absurd ⟨es, [e], home, base, rfl, h⟩ hw
      · subst h; exact absurd (List.mem_append_right _ (.head _)) (hk c)

/-- **C111 is false of the code** for a reload: whatever was before, a wrong configuration ends the daemon, and the exit code is 0. -/
theorem C111_false_reload (es : List Ev) (i : Nat) (home base b : String) (h : (runs .init es).procs[i]? = some (.working home base)) :
    (runs .init (es ++ [.reload i b false])).procs[i]? = some (.ended 0) := by
  rw [runs_snoc]
  have hlt := (List.getElem?_eq_some_iff.1 h).1
  simp only [step, h, State.apply, State.end_]
  simp [hlt]

/-- Test (C111): a daemon that cannot read its configuration, one whose jobs cannot be configured, one that finds the lock taken. -/
example : (runs .init [.launch none, .launch (some "/a"), .lock 1, .apply 1 false, .launch (some "/b"), .lock 2, .launch (some "/b"), .lock 3]).procs =
    [.ended 1, .ended 1, .locked "/b", .ended 69] := by decide +kernel

/-! ## A concrete case -/

/-- Two daemons; the second comes too early once, and again after the first was killed. -/
def exRun : List Ev := [.launch (some "/srv/backy"), .lock 0, .launch (some "/srv/backy"), .apply 0 true, .lock 1, .reload 0 "/srv/backy" true,
  .die 0 137, .launch (some "/srv/backy"), .lock 2, .apply 2 true]

example : Stays .init exRun := by
  refine ⟨?_, ?_, ?_, ?_, ?_, ?_, ?_, ?_, ?_, ?_, trivial⟩ <;> intro i base ok home b he hp <;> first | cases he | skip
  have : (some (Phase.working "/srv/backy" "/srv/backy")) = some (Phase.working home b) := by
    rw [← hp]; decide +kernel
  cases this; rfl

example : (runs .init exRun).procs = [.ended 137, .ended 69, .working "/srv/backy" "/srv/backy"] ∧
    (runs .init exRun).started = [(2, "/srv/backy"), (0, "/srv/backy"), (0, "/srv/backy")] ∧
    (runs .init exRun).locks = [("/srv/backy.lock", 2)] := by decide +kernel

example := C98_restart [.launch (some "/a"), .lock 0, .apply 0 true, .die 0 137, .launch (some "/a")] 1 "/a" (by decide +kernel) (fun j => by
  have : (runs .init [.launch (some "/a"), .lock 0, .apply 0 true, .die 0 137, .launch (some "/a")]).procs = [.ended 137, .configured "/a"] := by decide +kernel
  unfold Has
  rw [this]
  rcases j with _ | _ | j <;> simp)

theorem exRefused_waits : ∀ k, (runs .init ([.launch (some "/a"), .launch (some "/a"), .lock 0, .lock 1].take k)).procs[1]? ∈
    [none, some (.configured "/a"), some (.ended 69)] := by
  intro k
  match k with
  | 0 => decide +kernel
  | 1 => decide +kernel
  | 2 => decide +kernel
  | 3 => decide +kernel
  | k + 4 => rw [List.take_of_length_le (by simp)]; decide +kernel

example := C111_start_partial [.launch (some "/a"), .launch (some "/a"), .lock 0, .lock 1] 1 69 (by decide +kernel) (by intro c; simp) (by
  rintro ⟨es1, es2, home, base, he, hw⟩
  have h := exRefused_waits es1.length
  rw [he, List.take_left, hw] at h
  simp at h)

end Verif.Life
