import Verif.Model.Slots
/-!
# C53: the worker limit holds
-/
namespace Verif.Slots

/-- The number of tasks that run a backup in a slot of this speed. -/
def running (s : State) (fast : Bool) : Nat :=
  s.tasks.countP (fun t => match t with
    | .running f _ => f == fast
    | _ => false)

/-- The number of tasks using a semaphore. -/
def users (s : State) (k : Nat) : Nat :=
  s.tasks.countP (fun t => match t with
    | .running _ k' => k' == k
    | _ => false)

/-- The free slots of the current semaphore. -/
def free (s : State) (fast : Bool) : Option Nat := (s.sem fast).bind (fun k => s.sems[k]?.map Sem.value)

/-- No slot is lost: free slots and users add up to the limit of every semaphore. -/
def Inv (s : State) : Prop :=
  (∀ k x, s.sems[k]? = some x → x.value + users s k = x.bound) ∧
  (∀ t ∈ s.tasks, ∀ f k, t = .waiting f k ∨ t = .running f k → k < s.sems.length) ∧
  (∀ a b, s.current = some (a, b) → a < s.sems.length ∧ b < s.sems.length)

theorem countP_set_add {α : Type} (p : α → Bool) (l : List α) (i : Nat) (a b : α) (h : l[i]? = some b) :
    (l.set i a).countP p + (if p b then 1 else 0) = l.countP p + (if p a then 1 else 0) := by
  induction l generalizing i with
  | nil => simp at h
  | cons x t ih =>
    cases i with
    | zero =>
      simp only [List.getElem?_cons_zero, Option.some.injEq] at h
      subst h
      simp only [List.set_cons_zero, List.countP_cons]
      omega
    | succ i =>
      simp only [List.getElem?_cons_succ] at h
      have := ih i h
      simp only [List.set_cons_succ, List.countP_cons]
      omega

theorem add_get (s : State) (k j : Nat) (f : Nat → Nat) :
    (s.add k f)[j]? = if j = k then s.sems[j]?.map (fun x => { x with value := f x.value }) else s.sems[j]? := by
  unfold State.add
  rw [List.getElem?_modify]
  by_cases h : k = j
  · subst h; simp
  · rw [if_neg (Ne.symm h)]
    cases s.sems[j]? <;> simp [h]

theorem add_length (s : State) (k : Nat) (f : Nat → Nat) : (s.add k f).length = s.sems.length := by
  simp [State.add]

theorem mem_set_imp {α : Type} {l : List α} {i : Nat} {a x : α} (h : x ∈ l.set i a) : x ∈ l ∨ x = a :=
  List.mem_or_eq_of_mem_set h

theorem Inv.append {s : State} (h : Inv s) (limit : Nat) :
    Inv { s with sems := s.sems ++ [⟨limit, limit⟩, ⟨limit, limit⟩], current := some (s.sems.length, s.sems.length + 1) } := by
  obtain ⟨h1, h2, h3⟩ := h
  refine ⟨?_, ?_, ?_⟩
  · intro k x hk
    by_cases hlt : k < s.sems.length
    · rw [List.getElem?_append_left hlt] at hk
      exact h1 k x hk
    · have hu : users s k = 0 := by
        unfold users
        rw [List.countP_eq_zero]
        intro t ht
        cases t with
        | running f k' =>
          have := h2 _ ht f k' (.inr rfl)
          simp; omega
        | _ => simp
      show x.value + users s k = x.bound
      rw [hu]
      rw [List.getElem?_append_right (by omega)] at hk
      have : k - s.sems.length = 0 ∨ k - s.sems.length = 1 ∨ 2 ≤ k - s.sems.length := by omega
      rcases this with e | e | e
      · rw [e] at hk; simp at hk; subst hk; rfl
      · rw [e] at hk; simp at hk; subst hk; rfl
      · rw [List.getElem?_eq_none (by simpa using e)] at hk; cases hk
  · intro t ht f k hk
    have := h2 t ht f k hk
    simp; omega
  · intro a b hab
    simp only [Option.some.injEq, Prod.mk.injEq] at hab
    simp; omega

theorem Inv.step {s s' : State} {e : Ev} (h : Inv s) (hs : step s e = some s') : Inv s' := by
  have hall := h
  obtain ⟨h1, h2, h3⟩ := h
  cases e with
  | start =>
    simp only [Slots.step, Option.some.injEq] at hs; subst hs
    refine ⟨?_, ?_, h3⟩
    · intro k x hk
      have := h1 k x hk
      simpa [users] using this
    · intro t ht f k hk
      simp only [List.mem_append, List.mem_singleton] at ht
      rcases ht with ht | rfl
      · exact h2 t ht f k hk
      · rcases hk with hk | hk <;> cases hk
  | request i fast =>
    simp only [Slots.step] at hs
    split at hs
    · rename_i k hi hk
      simp only [Option.some.injEq] at hs; subst hs
      refine ⟨?_, ?_, h3⟩
      · intro j x hj
        have := h1 j x hj
        have hc := countP_set_add (fun t => match t with
          | .running _ k' => k' == j
          | _ => false) s.tasks i (.waiting fast k) .idle hi
        simp only [Bool.false_eq_true, if_false] at hc
        show x.value + users _ j = _
        unfold users at this ⊢
        simp only [] at hc this ⊢
        omega
      · intro t ht f k' hk'
        rcases mem_set_imp ht with ht | rfl
        · exact h2 t ht f k' hk'
        · rcases hk' with hk' | hk'
          · cases hk'
            unfold State.sem at hk
            cases hc : s.current with
            | none => rw [hc] at hk; cases hk
            | some c =>
              rw [hc] at hk
              obtain ⟨a, b⟩ := c
              have := h3 a b hc
              simp only [Option.map_some, Option.some.injEq] at hk
              split at hk <;> · subst hk; simp; omega
          · cases hk'
    · cases hs
  | grant i =>
    simp only [Slots.step] at hs
    split at hs
    · rename_i fast k hi
      split at hs
      · rename_i x hx
        split at hs
        · rename_i hpos
          simp only [Option.some.injEq] at hs; subst hs
          refine ⟨?_, ?_, ?_⟩
          · intro j y hj
            have hc := countP_set_add (fun t => match t with
              | .running _ k' => k' == j
              | _ => false) s.tasks i (.running fast k) (.waiting fast k) hi
            rw [add_get] at hj
            by_cases hjk : j = k
            · subst hjk
              rw [if_pos rfl, hx] at hj
              simp only [Option.map_some, Option.some.injEq] at hj
              subst hj
              have := h1 j x hx
              unfold users at this ⊢
              simp only [beq_self_eq_true, if_true, Bool.false_eq_true, if_false] at hc this ⊢
              omega
            · rw [if_neg hjk] at hj
              have := h1 j y hj
              unfold users at this ⊢
              have hb : (k == j) = false := by simp [Ne.symm hjk]
              simp only [hb, Bool.false_eq_true, if_false] at hc this ⊢
              omega
          · intro t ht f k' hk'
            simp only [add_length]
            rcases mem_set_imp ht with ht | rfl
            · exact h2 t ht f k' hk'
            · rcases hk' with hk' | hk'
              · cases hk'
              · cases hk'
                exact h2 _ (List.mem_of_getElem? hi) fast k (.inl rfl)
          · intro a b hab
            simp only [add_length]; exact h3 a b hab
        · cases hs
      · cases hs
    · cases hs
  | leave i =>
    simp only [Slots.step] at hs
    split at hs
    · rename_i fast k hi
      simp only [Option.some.injEq] at hs; subst hs
      refine ⟨?_, ?_, ?_⟩
      · intro j y hj
        have hc := countP_set_add (fun t => match t with
          | .running _ k' => k' == j
          | _ => false) s.tasks i .idle (.running fast k) hi
        rw [add_get] at hj
        by_cases hjk : j = k
        · subst hjk
          rw [if_pos rfl] at hj
          cases hx : s.sems[j]? with
          | none => rw [hx] at hj; cases hj
          | some x =>
            rw [hx] at hj
            simp only [Option.map_some, Option.some.injEq] at hj
            subst hj
            have := h1 j x hx
            unfold users at this ⊢
            simp only [beq_self_eq_true, if_true, Bool.false_eq_true, if_false] at hc this ⊢
            omega
        · rw [if_neg hjk] at hj
          have := h1 j y hj
          unfold users at this ⊢
          have hb : (k == j) = false := by simp [Ne.symm hjk]
          simp only [hb, Bool.false_eq_true, if_false] at hc this ⊢
          omega
      · intro t ht f k' hk'
        show k' < (s.add k _).length
        rw [add_length]
        rcases mem_set_imp ht with ht | rfl
        · exact h2 t ht f k' hk'
        · rcases hk' with hk' | hk' <;> cases hk'
      · intro a b hab
        show a < (s.add k _).length ∧ b < (s.add k _).length
        rw [add_length]; exact h3 a b hab
    · cases hs
  | cancel i =>
    simp only [Slots.step] at hs
    split at hs
    · rename_i fast k hi
      simp only [Option.some.injEq] at hs; subst hs
      refine ⟨?_, ?_, ?_⟩
      · intro j y hj
        have hc := countP_set_add (fun t => match t with
          | .running _ k' => k' == j
          | _ => false) s.tasks i .ended (.running fast k) hi
        rw [add_get] at hj
        by_cases hjk : j = k
        · subst hjk
          rw [if_pos rfl] at hj
          cases hx : s.sems[j]? with
          | none => rw [hx] at hj; cases hj
          | some x =>
            rw [hx] at hj
            simp only [Option.map_some, Option.some.injEq] at hj
            subst hj
            have := h1 j x hx
            unfold users at this ⊢
            simp only [beq_self_eq_true, if_true, Bool.false_eq_true, if_false] at hc this ⊢
            omega
        · rw [if_neg hjk] at hj
          have := h1 j y hj
          unfold users at this ⊢
          have hb : (k == j) = false := by simp [Ne.symm hjk]
          simp only [hb, Bool.false_eq_true, if_false] at hc this ⊢
          omega
      · intro t ht f k' hk'
        show k' < (s.add k _).length
        rw [add_length]
        rcases mem_set_imp ht with ht | rfl
        · exact h2 t ht f k' hk'
        · rcases hk' with hk' | hk' <;> cases hk'
      · intro a b hab
        show a < (s.add k _).length ∧ b < (s.add k _).length
        rw [add_length]; exact h3 a b hab
    · cases hs
    · rename_i t hne1 hne2 hi
      simp only [Option.some.injEq] at hs; subst hs
      refine ⟨?_, ?_, h3⟩
      · intro j x hj
        have := h1 j x hj
        have hc := countP_set_add (fun t => match t with
          | .running _ k' => k' == j
          | _ => false) s.tasks i .ended t hi
        unfold users at this ⊢
        cases t with
        | running f k => exact absurd rfl (hne1 f k)
        | _ => simp only [Bool.false_eq_true, if_false] at hc this ⊢; omega
      · intro t' ht f k' hk'
        rcases mem_set_imp ht with ht | rfl
        · exact h2 t' ht f k' hk'
        · rcases hk' with hk' | hk' <;> cases hk'
    · cases hs
  | reload limit =>
    simp only [Slots.step, Option.some.injEq] at hs; subst hs
    unfold State.reload
    split
    · split
      · exact Inv.append hall limit
      · exact hall
    · exact Inv.append hall limit

theorem Inv.init : Inv .init := by
  refine ⟨?_, ?_, ?_⟩ <;> simp [State.init]

theorem Inv.runs : ∀ {es : List Ev} {s s' : State}, Inv s → runs s es = some s' → Inv s'
  | [], s, s', h, hr => by cases hr; exact h
  | e :: rest, s, s', h, hr => by
    simp only [Slots.runs, Option.bind_eq_some_iff] at hr
    obtain ⟨m, hm, hr⟩ := hr
    exact Inv.runs (h.step hm) hr

/-- With a constant limit there is at most one pair of semaphores. -/
def Fixed (L : Nat) (s : State) : Prop :=
  ((s.sems = [] ∧ s.current = none) ∨ (s.sems.length = 2 ∧ s.current = some (0, 1) ∧ ∀ x ∈ s.sems, x.bound = L)) ∧
  ∀ t ∈ s.tasks, ∀ f k, t = .waiting f k ∨ t = .running f k → k = if f then 1 else 0

theorem add_bound {s : State} {k : Nat} {f : Nat → Nat} {L : Nat} (h : ∀ x ∈ s.sems, x.bound = L) :
    ∀ x ∈ s.add k f, x.bound = L := by
  intro x hx
  obtain ⟨j, hj⟩ := List.mem_iff_getElem?.1 hx
  rw [add_get] at hj
  split at hj
  · cases hy : s.sems[j]? with
    | none => rw [hy] at hj; cases hj
    | some y =>
      rw [hy] at hj
      simp only [Option.map_some, Option.some.injEq] at hj
      subst hj
      exact h y (List.mem_of_getElem? hy)
  · exact h x (List.mem_of_getElem? hj)

theorem Fixed.add {L : Nat} {s : State} (h : Fixed L s) (k : Nat) (f : Nat → Nat) (ts : List Phase)
    (ht : ∀ t ∈ ts, ∀ f k, t = .waiting f k ∨ t = .running f k → k = if f then 1 else 0) :
    Fixed L { s with tasks := ts, sems := s.add k f } := by
  refine ⟨?_, ht⟩
  rcases h.1 with ⟨h1, h2⟩ | ⟨h1, h2, h3⟩
  · left
    refine ⟨?_, h2⟩
    show s.add k f = []
    rw [← List.length_eq_zero_iff, add_length, h1]; rfl
  · right
    refine ⟨?_, h2, add_bound h3⟩
    show (s.add k f).length = 2
    rw [add_length]; exact h1

theorem Fixed.step {L : Nat} {s s' : State} {e : Ev} (h : Fixed L s) (he : ∀ l, e = .reload l → l = L)
    (hs : step s e = some s') : Fixed L s' := by
  obtain ⟨h1, h2⟩ := h
  have hset : ∀ i p, (∀ f k, p = Phase.waiting f k ∨ p = .running f k → k = if f then 1 else 0) →
      ∀ t ∈ s.tasks.set i p, ∀ f k, t = .waiting f k ∨ t = .running f k → k = if f then 1 else 0 := by
    intro i p hp t ht f k hk
    rcases mem_set_imp ht with ht | rfl
    · exact h2 t ht f k hk
    · exact hp f k hk
  cases e with
  | start =>
    simp only [Slots.step, Option.some.injEq] at hs; subst hs
    refine ⟨h1, ?_⟩
    intro t ht f k hk
    simp only [List.mem_append, List.mem_singleton] at ht
    rcases ht with ht | rfl
    · exact h2 t ht f k hk
    · rcases hk with hk | hk <;> cases hk
  | request i fast =>
    simp only [Slots.step] at hs
    split at hs
    · rename_i k hi hk
      simp only [Option.some.injEq] at hs; subst hs
      refine ⟨h1, hset i _ ?_⟩
      intro f k' hk'
      rcases hk' with hk' | hk'
      · cases hk'
        rcases h1 with ⟨_, hc⟩ | ⟨_, hc, _⟩
        · simp [State.sem, hc] at hk
        · simp [State.sem, hc] at hk; exact hk.symm
      · cases hk'
    · cases hs
  | grant i =>
    simp only [Slots.step] at hs
    split at hs
    · rename_i fast k hi
      split at hs
      · split at hs
        · simp only [Option.some.injEq] at hs; subst hs
          refine Fixed.add ⟨h1, h2⟩ k _ _ (hset i _ ?_)
          intro f k' hk'
          rcases hk' with hk' | hk'
          · cases hk'
          · cases hk'
            exact h2 _ (List.mem_of_getElem? hi) fast k (.inl rfl)
        · cases hs
      · cases hs
    · cases hs
  | leave i =>
    simp only [Slots.step] at hs
    split at hs
    · rename_i fast k hi
      simp only [Option.some.injEq] at hs; subst hs
      refine Fixed.add ⟨h1, h2⟩ k _ _ (hset i _ ?_)
      intro f k' hk'
      rcases hk' with hk' | hk' <;> cases hk'
    · cases hs
  | cancel i =>
    simp only [Slots.step] at hs
    split at hs
    · rename_i fast k hi
      simp only [Option.some.injEq] at hs; subst hs
      refine Fixed.add ⟨h1, h2⟩ k _ _ (hset i _ ?_)
      intro f k' hk'
      rcases hk' with hk' | hk' <;> cases hk'
    · cases hs
    · simp only [Option.some.injEq] at hs; subst hs
      refine ⟨h1, hset i _ ?_⟩
      intro f k' hk'
      rcases hk' with hk' | hk' <;> cases hk'
    · cases hs
  | reload limit =>
    have hl := he limit rfl
    subst hl
    simp only [Slots.step, Option.some.injEq] at hs; subst hs
    unfold State.reload
    rcases h1 with ⟨h1, hc⟩ | ⟨h1, hc, hb⟩
    · rw [hc]
      refine ⟨.inr ⟨?_, ?_, ?_⟩, h2⟩
      · simp [h1]
      · simp [h1]
      · simp [h1]
    · rw [hc]
      simp only []
      rw [if_neg]
      · exact ⟨.inr ⟨h1, hc, hb⟩, h2⟩
      · obtain ⟨x, hx⟩ : ∃ x, s.sems[0]? = some x := ⟨s.sems[0], List.getElem?_eq_getElem (by omega)⟩
        rw [hx]
        simp [hb x (List.mem_of_getElem? hx)]

theorem Fixed.runs {L : Nat} : ∀ {es : List Ev} {s s' : State}, Fixed L s → (∀ l, Ev.reload l ∈ es → l = L) →
    runs s es = some s' → Fixed L s'
  | [], s, s', h, _, hr => by cases hr; exact h
  | e :: rest, s, s', h, he, hr => by
    simp only [Slots.runs, Option.bind_eq_some_iff] at hr
    obtain ⟨m, hm, hr⟩ := hr
    exact Fixed.runs (h.step (fun l hl => he l (by simp [hl])) hm) (fun l hl => he l (by simp [hl])) hr

theorem Fixed.init (L : Nat) : Fixed L .init := ⟨.inl ⟨rfl, rfl⟩, by simp [State.init]⟩

theorem running_eq_users {L : Nat} {s : State} (h : Fixed L s) (fast : Bool) :
    running s fast = users s (if fast then 1 else 0) := by
  unfold running users
  apply List.countP_congr
  intro t ht
  cases t with
  | running f k =>
    have := h.2 _ ht f k (.inr rfl)
    subst this
    cases f <;> cases fast <;> simp
  | _ => simp

/-- **C53** With a constant worker limit `L`, at no time do more than `L` slow or more than `L` fast backups run. -/
theorem C53_limit (L : Nat) (es : List Ev) (s : State) (hl : ∀ l, Ev.reload l ∈ es → l = L)
    (hr : runs .init es = some s) (fast : Bool) : running s fast ≤ L := by
  have hi := Inv.init.runs hr
  have hf := (Fixed.init L).runs hl hr
  rw [running_eq_users hf]
  rcases hf.1 with ⟨h1, _⟩ | ⟨h1, _, h3⟩
  · have : users s (if fast then 1 else 0) = 0 := by
      unfold users
      rw [List.countP_eq_zero]
      intro t ht
      cases t with
      | running f k =>
        have := hi.2.1 _ ht f k (.inr rfl)
        simp [h1] at this
      | _ => simp
    omega
  · obtain ⟨x, hx⟩ : ∃ x, s.sems[if fast then 1 else 0]? = some x :=
      ⟨s.sems[if fast then 1 else 0]'(by split <;> omega), List.getElem?_eq_getElem _⟩
    have := hi.1 _ x hx
    have := h3 x (List.mem_of_getElem? hx)
    omega

/-- **C53** No slot is lost, however tasks end: if fewer than `L` backups of a speed are running, a task waiting for
this speed can get a slot. -/
theorem C53_no_slot_lost (L : Nat) (es : List Ev) (s : State) (hl : ∀ l, Ev.reload l ∈ es → l = L)
    (hr : runs .init es = some s) (fast : Bool) (i k : Nat) (hw : s.tasks[i]? = some (.waiting fast k))
    (hless : running s fast < L) : (step s (.grant i)).isSome = true := by
  have hi := Inv.init.runs hr
  have hf := (Fixed.init L).runs hl hr
  have hk : k = if fast then 1 else 0 := hf.2 _ (List.mem_of_getElem? hw) fast k (.inl rfl)
  have hlt : k < s.sems.length := hi.2.1 _ (List.mem_of_getElem? hw) fast k (.inl rfl)
  rcases hf.1 with ⟨h1, _⟩ | ⟨h1, _, h3⟩
  · simp [h1] at hlt
  · have hx : s.sems[k]? = some s.sems[k] := List.getElem?_eq_getElem hlt
    have h4 := hi.1 _ _ hx
    have h5 := h3 _ (List.mem_of_getElem? hx)
    rw [running_eq_users hf, ← hk] at hless
    simp only [step, hw, hx]
    rw [if_pos (by omega)]
    rfl

/-- The hypotheses are met: with limit 1, the second task waits until the first is cancelled. -/
example : ∃ s, runs .init [.reload 1, .start, .start, .request 0 true, .request 1 true, .grant 0] = some s ∧
    running s true = 1 ∧ step s (.grant 1) = none ∧
    ∃ s', runs s [.cancel 0, .grant 1, .reload 1] = some s' ∧ running s' true = 1 := by
  refine ⟨_, rfl, by decide, by decide, _, rfl, by decide⟩

/-- Changing the limit: backups running under the old limit keep their slots, so that more than the new limit may run. -/
example : ∃ s, runs .init [.reload 1, .start, .start, .request 0 true, .grant 0, .reload 2, .start, .start,
    .request 1 true, .request 2 true, .grant 1, .grant 2] = some s ∧ running s true = 3 := by
  refine ⟨_, rfl, by decide⟩

/-- C53_limit, C53_no_slot_lost: one slot, given back by the task that was cancelled. -/
example (s : State) (h : runs .init [.reload 1, .start, .start, .request 0 true, .request 1 true, .grant 0] = some s) :=
  C53_limit 1 _ s (by simp) h true
example (s : State) (h : runs .init [.reload 1, .start, .start, .request 0 true, .request 1 true, .grant 0, .cancel 0] = some s) :
    (step s (.grant 1)).isSome = true :=
  C53_no_slot_lost 1 _ s (by simp) h true 1 1 (by cases h; rfl) (by cases h; decide)

end Verif.Slots
