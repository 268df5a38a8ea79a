import Verif.Spec.Locks
import Mathlib.Tactic.ByContra
/-!
# Properties C40, C42 and C64: locking

All theorems are about every reachable state, that is every interleaving of any number of executions.
-/
namespace Verif.Locks
variable {D : Type}

/-- The functions called with `skip_lock=True` form a chain. -/
inductive Chain (op : Op) : List Op → Prop
  | nil : Chain op []
  | cons {inner : List Op} {c : Op} (h : Chain op inner) (hc : (inner.headD op).callsUnlocked c = true) : Chain op (c :: inner)

theorem Chain.spec {op : Op} {inner : List Op} (h : Chain op inner) :
    (inner = []) ∨ (op = .backup ∧ (inner = [.distrust] ∨ inner = [.verify] ∨ inner = [.gc, .verify])) ∨
      (op = .verify ∧ inner = [.gc]) := by
  induction h with
  | nil => exact .inl rfl
  | @cons inner c h hc ih =>
    right
    rcases ih with rfl | ⟨rfl, rfl | rfl | rfl⟩ | ⟨rfl, rfl⟩ <;> revert hc
    · cases op <;> cases c <;> simp [Op.callsUnlocked]
    · cases c <;> simp [Op.callsUnlocked]
    · cases c <;> simp [Op.callsUnlocked]
    · cases c <;> simp [Op.callsUnlocked]
    · cases c <;> simp [Op.callsUnlocked]

/-- What the status of an execution says about the locks it holds, latest first. -/
def Fits (L : List (Target × Mode)) : Status → Prop
  | .idle => L = []
  | .awaiting _ => L = []
  | .acquiring op rest => op.locks = L.reverse ++ rest
  | .running op inner => op.locks = L.reverse ∧ Chain op inner
  | .releasing rest _ => rest = L.map (·.1) ∧ ∃ op suf, Op.locks op = L.reverse ++ suf

/-- The invariant; `L p` are the locks of `p`. -/
structure Inv (s : State D) (L : Nat → List (Target × Mode)) : Prop where
  fits : ∀ p, Fits (L p) (s.at_ p)
  fds : ∀ p, s.fds p = (L p).map (·.1)
  nodup : ∀ p, ((L p).map (·.1)).Nodup
  table : ∀ p t m, ⟨p, t, m⟩ ∈ s.table ↔ (t, m) ∈ L p
  compat : ∀ a ∈ s.table, ∀ b ∈ s.table, a.owner ≠ b.owner → a.target = b.target → a.mode = .shared ∧ b.mode = .shared

theorem put_self {α : Type} (f : Nat → α) (p : Nat) (a : α) : put f p a p = a := by simp [put]
theorem put_ne {α : Type} (f : Nat → α) {p q : Nat} (a : α) (h : q ≠ p) : put f p a q = f q := by simp [put, h]

theorem locks_nodup (op : Op) : (op.locks.map (·.1)).Nodup := by cases op <;> decide

theorem conflicts_iff (table : List Held) (p : Nat) (t : Target) (m : Mode) :
    conflicts table p t m = true ↔ ∃ h ∈ table, h.owner ≠ p ∧ h.target = t ∧ (h.mode = .exclusive ∨ m = .exclusive) := by
  simp [conflicts, List.any_eq_true]

/-- Only the status of `p` changes, its locks do not. -/
theorem Inv.status {s : State D} {L : Nat → List (Target × Mode)} (h : Inv s L) (p : Nat) (st : Status) (hf : Fits (L p) st) :
    Inv { s with at_ := put s.at_ p st } L := by
  refine ⟨fun q => ?_, h.fds, h.nodup, h.table, h.compat⟩
  by_cases hq : q = p
  · subst hq; simpa [put_self] using hf
  · simpa [put_ne _ _ hq] using h.fits q

theorem Inv.step {s s' : State D} {L : Nat → List (Target × Mode)} (h : Inv s L) (hs : Step s s') :
    ∃ L', Inv s' L' := by
  cases hs with
  | call p op ha =>
    have := h.fits p; rw [ha] at this
    exact ⟨L, h.status p _ (by simp only [Fits] at this ⊢; rw [this]; rfl)⟩
  | reentrant p op t m rest ha hf =>
    have := h.fits p; rw [ha] at this
    exact ⟨L, h.status p _ ⟨h.fds p, op, _, this⟩⟩
  | refused p op t rest ha hf hc =>
    have := h.fits p; rw [ha] at this
    exact ⟨L, h.status p _ ⟨h.fds p, op, _, this⟩⟩
  | enter p op ha hy =>
    have := h.fits p; rw [ha] at this
    exact ⟨L, h.status p _ ⟨by simpa [Fits] using this, .nil⟩⟩
  | create p op ha hy =>
    have := h.fits p; rw [ha] at this
    exact ⟨L, h.status p _ ⟨h.fds p, op, _, this⟩⟩
  | work p op inner d ha => exact ⟨L, ⟨h.fits, h.fds, h.nodup, h.table, h.compat⟩⟩
  | nested p op inner callee ha hc =>
    have := h.fits p; rw [ha] at this
    exact ⟨L, h.status p _ ⟨this.1, .cons this.2 hc⟩⟩
  | ret p op callee inner ha =>
    have := h.fits p; rw [ha] at this
    exact ⟨L, h.status p _ ⟨this.1, by cases this.2; assumption⟩⟩
  | leave p op inner ha =>
    have := h.fits p; rw [ha] at this
    exact ⟨L, h.status p _ ⟨h.fds p, op, [], by rw [this.1]; simp⟩⟩
  | done p ha =>
    have := h.fits p; rw [ha] at this
    refine ⟨L, h.status p _ ?_⟩
    simp only [Fits] at this ⊢
    exact List.map_eq_nil_iff.1 this.1.symm
  | await p op ha =>
    have := h.fits p; rw [ha] at this
    refine ⟨L, h.status p _ ?_⟩
    simp only [Fits] at this ⊢
    exact List.map_eq_nil_iff.1 this.1.symm
  | asyncWork p op d ha => exact ⟨L, ⟨h.fits, h.fds, h.nodup, h.table, h.compat⟩⟩
  | finish p op ha =>
    have := h.fits p; rw [ha] at this
    exact ⟨L, h.status p _ this⟩
  | acquire p op t m rest ha hf hc =>
    have hfit := h.fits p; rw [ha] at hfit
    have hnc : ∀ e ∈ s.table, e.owner ≠ p → e.target = t → e.mode = .shared ∧ m = .shared := by
      intro e he ho ht
      by_contra hcon
      have : conflicts s.table p t m = true := (conflicts_iff _ _ _ _).2 ⟨e, he, ho, ht, by
        cases hm : e.mode <;> cases hm' : m <;> simp_all⟩
      rw [hc] at this; cases this
    refine ⟨put L p ((t, m) :: L p), fun q => ?_, fun q => ?_, fun q => ?_, fun q t' m' => ?_, ?_⟩
    · by_cases hq : q = p
      · subst hq
        simp only [put_self, Fits] at hfit ⊢
        simp [hfit]
      · simpa [put_ne _ _ hq] using h.fits q
    · by_cases hq : q = p
      · subst hq; simp [put_self, h.fds q]
      · simpa [put_ne _ _ hq] using h.fds q
    · by_cases hq : q = p
      · subst hq
        simp only [put_self, List.map_cons, List.nodup_cons]
        exact ⟨by rw [← h.fds]; exact hf, h.nodup q⟩
      · simpa [put_ne _ _ hq] using h.nodup q
    · by_cases hq : q = p
      · subst hq; simp [put_self, h.table]
      · simp [put_ne _ _ hq, h.table, hq]
    · intro a ha' b hb hne ht
      simp only [List.mem_cons] at ha' hb
      rcases ha' with rfl | ha' <;> rcases hb with rfl | hb
      · exact absurd rfl hne
      · exact (hnc b hb (Ne.symm hne) ht.symm).symm
      · exact hnc a ha' hne ht
      · exact h.compat a ha' b hb hne ht
  | release p t rest a ha =>
    have hfit := h.fits p; rw [ha] at hfit
    simp only [Fits] at hfit
    obtain ⟨hfit, op, suf, hop⟩ := hfit
    obtain ⟨x, L2, hL, hx, hL2⟩ := List.map_eq_cons_iff.1 hfit.symm
    have hnd := h.nodup p
    rw [hL, List.map_cons, List.nodup_cons] at hnd
    refine ⟨put L p L2, fun q => ?_, fun q => ?_, fun q => ?_, fun q t' m' => ?_, ?_⟩
    · by_cases hq : q = p
      · subst hq; simp only [put_self, Fits]; exact ⟨hL2.symm, op, x :: suf, by rw [hop, hL]; simp⟩
      · simpa [put_ne _ _ hq] using h.fits q
    · by_cases hq : q = p
      · subst hq; simp [put_self, h.fds q, hL, hx]
      · simpa [put_ne _ _ hq] using h.fds q
    · by_cases hq : q = p
      · subst hq; simpa [put_self] using hnd.2
      · simpa [put_ne _ _ hq] using h.nodup q
    · by_cases hq : q = p
      · subst hq
        simp only [put_self, List.mem_filter, h.table, hL, List.mem_cons]
        constructor
        · rintro ⟨h1 | h1, h2⟩
          · exfalso
            have : t' = t := by rw [← hx, ← h1]
            simp [this] at h2
          · exact h1
        · intro h1
          refine ⟨.inr h1, ?_⟩
          have : t' ≠ t := by
            rintro rfl
            exact hnd.1 (by rw [hx]; exact List.mem_map.2 ⟨_, h1, rfl⟩)
          simp [this]
      · simp [put_ne _ _ hq, h.table, hq]
    · intro a ha' b hb
      exact h.compat a (List.mem_of_mem_filter ha') b (List.mem_of_mem_filter hb)
  | die p =>
    refine ⟨put L p [], fun q => ?_, fun q => ?_, fun q => ?_, fun q t' m' => ?_, ?_⟩
    · by_cases hq : q = p
      · subst hq; simp [put_self, Fits]
      · simpa [put_ne _ _ hq] using h.fits q
    · by_cases hq : q = p
      · subst hq; simp [put_self]
      · simpa [put_ne _ _ hq] using h.fds q
    · by_cases hq : q = p
      · subst hq; simp [put_self]
      · simpa [put_ne _ _ hq] using h.nodup q
    · by_cases hq : q = p
      · subst hq; simp [put_self]
      · simp [put_ne _ _ hq, h.table, hq]
    · intro a ha' b hb
      exact h.compat a (List.mem_of_mem_filter ha') b (List.mem_of_mem_filter hb)

theorem Reachable.inv {d : D} {s : State D} (h : Reachable d s) : ∃ L, Inv s L := by
  induction h with
  | init => exact ⟨fun _ => [], fun _ => rfl, fun _ => rfl, fun _ => .nil, fun _ _ _ => by simp, fun a ha => by cases ha⟩
  | step _ h' ih => obtain ⟨L, hL⟩ := ih; exact hL.step h'

/-- Executions in the body of a function hold what its decorators ask for. -/
theorem Inv.running {s : State D} {L : Nat → List (Target × Mode)} (h : Inv s L) {p : Nat} {op : Op} {inner : List Op}
    (hr : s.at_ p = .running op inner) (t : Target) (m : Mode) (hm : (t, m) ∈ op.locks) : ⟨p, t, m⟩ ∈ s.table := by
  have := h.fits p; rw [hr] at this
  rw [h.table]
  have := this.1 ▸ hm
  simpa using this

theorem Inv.inside_purge {s : State D} {L : Nat → List (Target × Mode)} (h : Inv s L) {p : Nat} {op : Op}
    (hr : Inside s p op) (ht : op.touchesData = true) : ∃ m, ⟨p, .purge, m⟩ ∈ s.table := by
  obtain ⟨o, inner, ha, ho⟩ := hr
  have hch := h.fits p; rw [ha] at hch
  have hrun := fun t m => h.running ha t m
  rcases ho with rfl | ho
  · cases op <;> simp [Op.touchesData] at ht
    · exact ⟨_, hrun .purge .shared (by decide)⟩
    · exact ⟨_, hrun .purge .shared (by decide)⟩
    · exact ⟨_, hrun .purge .exclusive (by decide)⟩
    · exact ⟨_, hrun .purge .shared (by decide)⟩
  · rcases hch.2.spec with rfl | ⟨rfl, _⟩ | ⟨rfl, _⟩
    · cases ho
    · exact ⟨_, hrun .purge .shared (by decide)⟩
    · exact ⟨_, hrun .purge .shared (by decide)⟩

theorem Inv.inside_backup {s : State D} {L : Nat → List (Target × Mode)} (h : Inv s L) {p : Nat} {op : Op}
    (hr : Inside s p op) (ht : op.editsMetadata = true) : ⟨p, .backup, .exclusive⟩ ∈ s.table := by
  obtain ⟨o, inner, ha, ho⟩ := hr
  have hch := h.fits p; rw [ha] at hch
  have hrun := fun t m => h.running ha t m
  rcases ho with rfl | ho
  · cases op <;> simp [Op.editsMetadata] at ht <;> exact hrun .backup .exclusive (by decide)
  · rcases hch.2.spec with rfl | ⟨rfl, _⟩ | ⟨rfl, rfl⟩
    · cases ho
    · exact hrun .backup .exclusive (by decide)
    · simp at ho; subst ho; cases ht

/-- **C40** Two executions hold the same lock only if both hold it shared. -/
theorem C40_exclusion {d : D} {s : State D} (h : Reachable d s) (a b : Held) (ha : a ∈ s.table) (hb : b ∈ s.table)
    (hne : a.owner ≠ b.owner) (ht : a.target = b.target) : a.mode = .shared ∧ b.mode = .shared := by
  obtain ⟨L, hL⟩ := h.inv
  exact hL.compat a ha b hb hne ht

/-- **C40** At most one execution makes a backup, cleans, removes, expires, distrusts or changes tags, in
particular there is one backup at a time. -/
theorem C40_one_editor {d : D} {s : State D} (h : Reachable d s) (p q : Nat) (x y : Op) (hx : Inside s p x)
    (hy : Inside s q y) (ex : x.editsMetadata = true) (ey : y.editsMetadata = true) : p = q := by
  obtain ⟨L, hL⟩ := h.inv
  by_contra hne
  have := (hL.compat _ (hL.inside_backup hx ex) _ (hL.inside_backup hy ey) hne rfl).1
  cases this

/-- **C40** (partial: the command, not the garbage collection at the end of a verification) While the garbage
collection command runs, no other execution makes a backup, restores, verifies or collects garbage. -/
theorem C40_gc_alone_partial {d : D} {s : State D} (h : Reachable d s) (p q : Nat) (inner : List Op) (y : Op)
    (hx : s.at_ p = .running .gc inner) (hy : Inside s q y) (ey : y.touchesData = true) : p = q := by
  obtain ⟨L, hL⟩ := h.inv
  by_contra hne
  obtain ⟨m, hm⟩ := hL.inside_purge hy ey
  have := (hL.compat _ (hL.running hx .purge .exclusive (by decide)) _ hm hne rfl).1
  cases this

/-- **C40** An execution that asks for an exclusive lock somebody else holds does not get into the function: its next step
is to give up, all later steps only give back what it has. -/
theorem C40_refused {s s' : State D} (hs : Step s s') (p : Nat) :
    (∀ op t rest, s.at_ p = .acquiring op ((t, .exclusive) :: rest) → conflicts s.table p t .exclusive = true →
      s'.at_ p = s.at_ p ∨ (∃ ts, s'.at_ p = .releasing ts none) ∨ s'.at_ p = .idle) ∧
    (∀ ts, s.at_ p = .releasing ts none → (∃ ts', s'.at_ p = .releasing ts' none) ∨ s'.at_ p = .idle) := by
  have key : ∀ (q : Nat) (st : Status), (q = p → s.at_ p = s.at_ q → put s.at_ q st p = st) ∧ (q ≠ p → put s.at_ q st p = s.at_ p) :=
    fun q st => ⟨fun e _ => by subst e; exact put_self _ _ _, fun e => put_ne _ _ (Ne.symm e)⟩
  constructor
  · intro op t rest ha hc
    cases hs with
    | work q op' inner d hq => exact .inl rfl
    | asyncWork q op' d hq => exact .inl rfl
    | _ q =>
      by_cases e : q = p
      · subst e
        first
          | (right; left; exact ⟨_, put_self _ _ _⟩)
          | (right; right; exact put_self _ _ _)
          | (exfalso; simp_all; done)
      · exact .inl (put_ne _ _ (Ne.symm e))
  · intro ts ha
    cases hs with
    | work q op' inner d hq => exact .inl ⟨ts, ha⟩
    | asyncWork q op' d hq => exact .inl ⟨ts, ha⟩
    | release q t rest a hq =>
      by_cases e : q = p
      · subst e
        have : a = none := by rw [ha] at hq; cases hq; rfl
        subst this
        exact .inl ⟨rest, put_self _ _ _⟩
      · exact .inl ⟨ts, (put_ne _ _ (Ne.symm e)).trans ha⟩
    | _ q =>
      by_cases e : q = p
      · subst e
        first
          | (right; exact put_self _ _ _)
          | (exfalso; simp_all; done)
          | (left; refine ⟨_, (put_self _ _ _).trans ?_⟩; simp_all; done)
          | (left; exact ⟨_, put_self _ _ _⟩)
      · exact .inl ⟨ts, (put_ne _ _ (Ne.symm e)).trans ha⟩

/-- **C40** Only an execution in the body of a function changes anything, and it holds all locks of this function then
(or it is a coroutine, see C42). -/
theorem C40_changes_only_locked {d : D} {s s' : State D} (h : Reachable d s) (hs : Step s s') (hd : s'.data ≠ s.data) :
    ∃ p, (∃ op inner, s.at_ p = .running op inner ∧ ∀ t m, (t, m) ∈ op.locks → ⟨p, t, m⟩ ∈ s.table) ∨
      (∃ op, s.at_ p = .awaiting op) := by
  obtain ⟨L, hL⟩ := h.inv
  cases hs with
  | work p op inner d hq => exact ⟨p, .inl ⟨op, inner, hq, fun t m => hL.running hq t m⟩⟩
  | asyncWork p op d hq => exact ⟨p, .inr ⟨op, hq⟩⟩
  | _ => exact absurd rfl hd

/-- **C40** The error "Locking is not re-entrant" never occurs. -/
theorem C40_never_reentrant {d : D} {s : State D} (h : Reachable d s) (p : Nat) (op : Op) (t : Target) (m : Mode)
    (rest : List (Target × Mode)) (ha : s.at_ p = .acquiring op ((t, m) :: rest)) : t ∉ s.fds p := by
  obtain ⟨L, hL⟩ := h.inv
  have hfit := hL.fits p; rw [ha] at hfit
  simp only [Fits] at hfit
  have := locks_nodup op
  rw [hfit] at this
  rw [hL.fds]
  intro hmem
  simp only [List.map_append, List.map_cons, List.map_reverse] at this
  rw [List.nodup_append] at this
  exact this.2.2 t (List.mem_reverse.2 hmem) t (by simp) rfl

/-- Who holds the lock a waiting execution asks for. -/
theorem Inv.blocker {s : State D} {L : Nat → List (Target × Mode)} (h : Inv s L) {p : Nat} {op : Op} {t : Target}
    {rest : List (Target × Mode)} (ha : s.at_ p = .acquiring op ((t, .shared) :: rest))
    (hc : conflicts s.table p t .shared = true) : t = .purge ∧ ∃ q, q ≠ p ∧ ⟨q, .purge, .exclusive⟩ ∈ s.table ∧
      L q = [(.purge, .exclusive)] ∧ ((∃ a, s.at_ q = .releasing [.purge] a) ∨ s.at_ q = .acquiring .gc [] ∨ s.at_ q = .running .gc []) := by
  have hfit := h.fits p; rw [ha] at hfit
  simp only [Fits] at hfit
  have htp : t = .purge := by
    have : (t, Mode.shared) ∈ op.locks := by rw [hfit]; simp
    revert this
    cases op <;> simp [Op.locks]
  subst htp
  refine ⟨rfl, ?_⟩
  obtain ⟨e, he, ho, ht, hm⟩ := (conflicts_iff _ _ _ _).1 hc
  obtain ⟨q, t', m'⟩ := e
  simp only at ho ht hm
  subst ht
  have hm' : m' = .exclusive := by rcases hm with h | h <;> [exact h; cases h]
  subst hm'
  have hLq := (h.table _ _ _).1 he
  have hfq := h.fits q
  refine ⟨q, ho, he, ?_⟩
  cases hq : s.at_ q with
  | idle => rw [hq] at hfq; rw [show L q = [] from hfq] at hLq; cases hLq
  | awaiting o => rw [hq] at hfq; rw [show L q = [] from hfq] at hLq; cases hLq
  | acquiring o r =>
    rw [hq] at hfq
    simp only [Fits] at hfq
    have hin : (Target.purge, Mode.exclusive) ∈ o.locks := by rw [hfq]; simp [hLq]
    have hog : o = .gc := by revert hin; cases o <;> simp [Op.locks]
    subst hog
    have : L q = [(.purge, .exclusive)] ∧ r = [] := by
      cases hl : L q with
      | nil => rw [hl] at hLq; cases hLq
      | cons x xs =>
        rw [hl] at hfq
        simp only [Op.locks, List.reverse_cons] at hfq
        have hlen := congrArg List.length hfq
        simp at hlen
        have hxs : xs = [] := List.length_eq_zero_iff.1 (by omega)
        have hr : r = [] := List.length_eq_zero_iff.1 (by omega)
        subst hxs hr
        simp at hfq
        exact ⟨by rw [hfq], rfl⟩
    obtain ⟨h1, rfl⟩ := this
    exact ⟨h1, .inr (.inl rfl)⟩
  | running o i =>
    rw [hq] at hfq
    simp only [Fits] at hfq
    have hin : (Target.purge, Mode.exclusive) ∈ o.locks := by rw [hfq.1]; simp [hLq]
    have hog : o = .gc := by revert hin; cases o <;> simp [Op.locks]
    subst hog
    have h1 : L q = [(.purge, .exclusive)] := by
      have := congrArg List.reverse hfq.1
      simpa [Op.locks] using this.symm
    rcases hfq.2.spec with rfl | ⟨h0, _⟩ | ⟨h0, _⟩
    · exact ⟨h1, .inr (.inr rfl)⟩
    · cases h0
    · cases h0
  | releasing ts a =>
    rw [hq] at hfq
    simp only [Fits] at hfq
    obtain ⟨h1, o, suf, h2⟩ := hfq
    have hin : (Target.purge, Mode.exclusive) ∈ o.locks := by rw [h2]; simp [hLq]
    have hog : o = .gc := by revert hin; cases o <;> simp [Op.locks]
    subst hog
    have : L q = [(.purge, .exclusive)] := by
      cases hl : L q with
      | nil => rw [hl] at hLq; cases hLq
      | cons x xs =>
        rw [hl] at h2
        simp only [Op.locks, List.reverse_cons] at h2
        have hlen := congrArg List.length h2
        simp at hlen
        have hxs : xs = [] := List.length_eq_zero_iff.1 (by omega)
        have hr : suf = [] := List.length_eq_zero_iff.1 (by omega)
        subst hxs hr
        simp at h2
        rw [h2]
    rw [this] at h1
    exact ⟨this, .inl ⟨a, by rw [h1]; rfl⟩⟩


/-- Steps in a row. -/
theorem Path.one {a b : State D} (h : Step a b) : Path a b := .cons (.nil a) h

theorem Path.trans {a b c : State D} (h : Path a b) (h' : Path b c) : Path a c := by
  induction h' with
  | nil => exact h
  | cons _ h2 ih => exact .cons ih h2

/-- **C64** No deadlock: an execution that waits for a shared lock gets it after finitely many steps of at most one other
execution, which itself waits for nothing. -/
theorem C64_no_deadlock {d : D} {s : State D} (h : Reachable d s) (p : Nat) (op : Op) (t : Target)
    (rest : List (Target × Mode)) (ha : s.at_ p = .acquiring op ((t, .shared) :: rest)) :
    ∃ q s', Path s s' ∧ s'.at_ p = .acquiring op rest ∧ (∀ r, r ≠ p → r ≠ q → s'.at_ r = s.at_ r) ∧ s'.data = s.data := by
  have hfds := C40_never_reentrant h p op t .shared rest ha
  obtain ⟨L, hL⟩ := h.inv
  by_cases hc : conflicts s.table p t .shared = true
  · obtain ⟨rfl, q, hqp, hheld, hLq, hst⟩ := hL.blocker ha hc
    -- the holder comes to the point where it gives the lock back
    have hrel : ∃ s1 a, Path s s1 ∧ s1.at_ = put s.at_ q (.releasing [.purge] a) ∧ s1.fds = s.fds ∧ s1.table = s.table ∧ s1.data = s.data := by
      have hf : s.fds q = [.purge] := by rw [hL.fds, hLq]; rfl
      rcases hst with ⟨a, hq⟩ | hq | hq
      · refine ⟨s, a, .nil s, ?_, rfl, rfl, rfl⟩
        funext r
        by_cases e : r = q
        · subst e; rw [put_self, hq]
        · rw [put_ne _ _ e]
      · have h1 := Step.enter s q .gc hq rfl
        have h2 := Step.leave { s with at_ := put s.at_ q (.running .gc []) } q .gc [] (put_self _ _ _)
        refine ⟨_, none, .cons (.one h1) h2, ?_, rfl, rfl, rfl⟩
        funext r
        by_cases e : r = q
        · subst e; simp [put_self, hf]
        · simp [put_ne _ _ e]
      · have h2 := Step.leave s q .gc [] hq
        refine ⟨_, none, .one h2, ?_, rfl, rfl, rfl⟩
        funext r
        by_cases e : r = q
        · subst e; simp [put_self, hf]
        · simp [put_ne _ _ e]
    obtain ⟨s1, a, hp1, e1, e2, e3, e4⟩ := hrel
    have hq1 : s1.at_ q = .releasing [.purge] a := by rw [e1, put_self]
    have h3 := Step.release s1 q .purge [] a hq1
    have hp1' : s1.at_ p = .acquiring op ((.purge, .shared) :: rest) := by rw [e1, put_ne _ _ (Ne.symm hqp), ha]
    have h4 := Step.acquire { s1 with at_ := put s1.at_ q (.releasing [] a), fds := put s1.fds q ((s1.fds q).erase .purge),
                                      table := s1.table.filter (fun e => !decide (e.owner = q ∧ e.target = .purge)) }
      p op .purge .shared rest (by rw [← hp1']; exact put_ne _ _ (Ne.symm hqp))
      (by show Target.purge ∉ put s1.fds q _ p; rw [put_ne _ _ (Ne.symm hqp), e2]; exact hfds)
      (by
        show conflicts _ p .purge .shared = false
        rw [← Bool.not_eq_true, conflicts_iff]
        rintro ⟨e, he, ho, ht, hm⟩
        rw [List.mem_filter, e3] at he
        have hm' : e.mode = .exclusive := by rcases hm with h | h <;> [exact h; cases h]
        have hoq : e.owner ≠ q := by
          intro hoq
          have := he.2
          simp [hoq, ht] at this
        have := (hL.compat e he.1 _ hheld hoq ht).2
        cases this)
    refine ⟨q, _, .cons (.cons hp1 h3) h4, put_self _ _ _, ?_, e4⟩
    intro r hr1 hr2
    show put (put s1.at_ q _) p _ r = s.at_ r
    rw [put_ne _ _ hr1, put_ne _ _ hr2, e1, put_ne _ _ hr2]
  · have h1 := Step.acquire s p op t .shared rest ha hfds (by simpa using hc)
    refine ⟨p, _, .one h1, put_self _ _ _, ?_, rfl⟩
    intro r hr _
    exact put_ne _ _ hr

/-- **C64** Outside of the decorated functions an execution holds no lock, also when it was killed. -/
theorem C64_released {d : D} {s : State D} (h : Reachable d s) (p : Nat)
    (ha : s.at_ p = .idle ∨ ∃ op, s.at_ p = .awaiting op) : ∀ e ∈ s.table, e.owner ≠ p := by
  obtain ⟨L, hL⟩ := h.inv
  have : L p = [] := by
    have := hL.fits p
    rcases ha with ha | ⟨op, ha⟩ <;> (rw [ha] at this; exact this)
  rintro ⟨q, t, m⟩ he rfl
  rw [hL.table, this] at he
  cases he

/-- **C40, not satisfied**: the garbage collection at the end of a verification runs under the shared lock only, so it
overlaps backups of others. -/
theorem C40_false_verify_gc (d : D) : ∃ s, Reachable d s ∧ Inside s 1 .gc ∧ Inside s 2 .backup := by
  let s0 : State D := ⟨fun _ => .idle, fun _ => [], [], d⟩
  have r0 : Reachable d s0 := .init
  have r1 := r0.step (.call s0 1 .verify rfl)
  have r2 := r1.step (.acquire _ 1 .verify .purge .shared [] rfl (by simp [s0]) rfl)
  have r3 := r2.step (.enter _ 1 .verify rfl rfl)
  have r4 := r3.step (.nested _ 1 .verify [] .gc rfl rfl)
  have r5 := r4.step (.call _ 2 .backup rfl)
  have r6 := r5.step (.acquire _ 2 .backup .backup .exclusive [(.purge, .shared)] rfl (by simp [s0, put]) rfl)
  have r7 := r6.step (.acquire _ 2 .backup .purge .shared [] rfl (by simp [s0, put]) rfl)
  have r8 := r7.step (.enter _ 2 .backup rfl rfl)
  exact ⟨_, r8, ⟨.verify, [.gc], rfl, .inr (by simp)⟩, ⟨.backup, [], rfl, .inl rfl⟩⟩

/-- **C42, not satisfied**: while the coroutine that pulls (or pushes) metadata runs, another execution changes tags. -/
theorem C42_false_unlocked (d : D) (op : Op) (hop : op = .pull ∨ op = .push) :
    ∃ s, Reachable d s ∧ s.at_ 1 = .awaiting op ∧ Inside s 2 .tags ∧ ∀ e ∈ s.table, e.owner ≠ 1 := by
  let s0 : State D := ⟨fun _ => .idle, fun _ => [], [], d⟩
  have r0 : Reachable d s0 := .init
  have hl : op.locks = [(.backup, .exclusive)] := by rcases hop with rfl | rfl <;> rfl
  have hy : op.isAsync = true := by rcases hop with rfl | rfl <;> rfl
  have r1 := r0.step (.call s0 1 op rfl)
  have r2 := r1.step (.acquire _ 1 op .backup .exclusive [] (by rw [hl]; rfl) (by simp [s0]) rfl)
  have r3 := r2.step (.create _ 1 op rfl hy)
  have r4 := r3.step (.release _ 1 .backup [] (some op) rfl)
  have r5 := r4.step (.await _ 1 op rfl)
  have r6 := r5.step (.call _ 2 .tags rfl)
  have r7 := r6.step (.acquire _ 2 .tags .backup .exclusive [] rfl (by simp [s0, put]) rfl)
  have r8 := r7.step (.enter _ 2 .tags rfl rfl)
  exact ⟨_, r8, rfl, ⟨.tags, [], rfl, .inl rfl⟩, C64_released r8 1 (.inr ⟨op, rfl⟩)⟩

/-- **C42** (partial: only when the exchange starts) The coroutine is created only while no other execution is in a
function that changes metadata. -/
theorem C42_start_partial {d : D} {s : State D} (h : Reachable d s) (p q : Nat) (op y : Op)
    (hop : op = .pull ∨ op = .push) (ha : s.at_ p = .acquiring op []) (hy : Inside s q y) (ey : y.editsMetadata = true) : False := by
  obtain ⟨L, hL⟩ := h.inv
  have hfit := hL.fits p; rw [ha] at hfit
  have hp : (⟨p, .backup, .exclusive⟩ : Held) ∈ s.table := by
    rw [hL.table]
    simp only [Fits, List.append_nil] at hfit
    have : (Target.backup, Mode.exclusive) ∈ op.locks := by rcases hop with rfl | rfl <;> decide
    rw [hfit] at this
    simpa using this
  by_cases hne : p = q
  · subst hne
    obtain ⟨o, i, hq, _⟩ := hy
    rw [ha] at hq; cases hq
  · have := (hL.compat _ hp _ (hL.inside_backup hy ey) hne rfl).1
    cases this

/-! ### Concrete cases -/

/-- The hypotheses are met: a garbage collection runs, a backup has the lock `.backup` and waits. -/
example (d : D) : ∃ s, Reachable d s ∧ s.at_ 1 = .running .gc [] ∧ s.at_ 2 = .acquiring .backup [(.purge, .shared)] ∧
    conflicts s.table 2 .purge .shared = true ∧ s.at_ 3 = .acquiring .rm [(.backup, .exclusive)] ∧
    conflicts s.table 3 .backup .exclusive = true := by
  let s0 : State D := ⟨fun _ => .idle, fun _ => [], [], d⟩
  have r0 : Reachable d s0 := .init
  have r1 := r0.step (.call s0 1 .gc rfl)
  have r2 := r1.step (.acquire _ 1 .gc .purge .exclusive [] rfl (by simp [s0]) rfl)
  have r3 := r2.step (.enter _ 1 .gc rfl rfl)
  have r5 := r3.step (.call _ 2 .backup rfl)
  have r6 := r5.step (.acquire _ 2 .backup .backup .exclusive [(.purge, .shared)] rfl (by simp [s0, put]) rfl)
  have r7 := r6.step (.call _ 3 .rm rfl)
  exact ⟨_, r7, rfl, rfl, rfl, rfl, rfl⟩

/-- C40_exclusion: a backup and a verification both hold the lock `.purge`. -/
example (d : D) : ∃ s : State D, Reachable d s ∧ ⟨1, .purge, .shared⟩ ∈ s.table ∧ ⟨2, .purge, .shared⟩ ∈ s.table ∧
    Inside s 1 .backup ∧ Inside s 2 .verify := by
  let s0 : State D := ⟨fun _ => .idle, fun _ => [], [], d⟩
  have r0 : Reachable d s0 := .init
  have r1 := r0.step (.call s0 1 .backup rfl)
  have r2 := r1.step (.acquire _ 1 .backup .backup .exclusive [(.purge, .shared)] rfl (by simp [s0]) rfl)
  have r3 := r2.step (.acquire _ 1 .backup .purge .shared [] rfl (by simp [s0, put]) rfl)
  have r4 := r3.step (.enter _ 1 .backup rfl rfl)
  have r5 := r4.step (.call _ 2 .verify rfl)
  have r6 := r5.step (.acquire _ 2 .verify .purge .shared [] rfl (by simp [s0, put]) rfl)
  have r7 := r6.step (.enter _ 2 .verify rfl rfl)
  have h := C40_exclusion r7 ⟨1, .purge, .shared⟩ ⟨2, .purge, .shared⟩ (.tail _ (.head _)) (.head _) (by decide) rfl
  exact ⟨_, r7, .tail _ (.head _), .head _, ⟨_, _, rfl, .inl rfl⟩, ⟨_, _, rfl, .inl rfl⟩⟩

/-- C40_one_editor, C40_gc_alone_partial, C40_changes_only_locked, C40_never_reentrant, C40_refused, C64_no_deadlock: the state of the
first case, in which a garbage collection runs, a backup waits for `.purge` and a removal is about to be refused. -/
example (d d' : D) : ∃ s : State D, Reachable d s ∧ ∃ s', Step s s' ∧ s'.data = d' ∧ s.at_ 1 = .running .gc [] ∧
    ∃ q s'', Path s s'' ∧ s''.at_ 2 = .acquiring .backup [] ∧ (∀ r, r ≠ 2 → r ≠ q → s''.at_ r = s.at_ r) ∧ s''.data = s.data := by
  let s0 : State D := ⟨fun _ => .idle, fun _ => [], [], d⟩
  have r0 : Reachable d s0 := .init
  have r1 := r0.step (.call s0 1 .gc rfl)
  have r2 := r1.step (.acquire _ 1 .gc .purge .exclusive [] rfl (by simp [s0]) rfl)
  have r3 := r2.step (.enter _ 1 .gc rfl rfl)
  have r5 := r3.step (.call _ 2 .backup rfl)
  have r6 := r5.step (.acquire _ 2 .backup .backup .exclusive [(.purge, .shared)] rfl (by simp [s0, put]) rfl)
  have r7 := r6.step (.call _ 3 .rm rfl)
  have w := (fun {s : State D} (_ : Reachable d s) (h : s.at_ 1 = .running .gc []) => Step.work s 1 .gc [] d' h) r7 rfl
  have h1 := C40_gc_alone_partial r7 1 1 [] .gc rfl ⟨_, _, rfl, .inl rfl⟩ rfl
  have h2 := C40_never_reentrant r7 2 .backup .purge .shared [] rfl
  have h3 := fun h => C40_changes_only_locked r7 w h
  have h4 := (fun {s : State D} (_ : Reachable d s) (h : s.at_ 3 = .acquiring .rm [(.backup, .exclusive)]) (hf : .backup ∉ s.fds 3)
    (hc : conflicts s.table 3 .backup .exclusive = true) =>
      (C40_refused (.refused s 3 .rm .backup [] h hf hc) 3).1 .rm .backup [] h hc) r7 rfl (by simp [s0, put]) rfl
  exact ⟨_, r7, _, w, rfl, rfl, C64_no_deadlock r7 2 .backup .purge [] rfl⟩

/-- C40_one_editor: the backup of the first case is the only editor. -/
example (d : D) : ∃ s : State D, Reachable d s ∧ Inside s 1 .tags ∧ ∀ q y, Inside s q y → y.editsMetadata = true → 1 = q := by
  let s0 : State D := ⟨fun _ => .idle, fun _ => [], [], d⟩
  have r0 : Reachable d s0 := .init
  have r1 := r0.step (.call s0 1 .tags rfl)
  have r2 := r1.step (.acquire _ 1 .tags .backup .exclusive [] rfl (by simp [s0]) rfl)
  have r3 := r2.step (.enter _ 1 .tags rfl rfl)
  exact ⟨_, r3, ⟨_, _, rfl, .inl rfl⟩, fun q y hy ey => C40_one_editor r3 1 q .tags y ⟨_, _, rfl, .inl rfl⟩ hy rfl ey⟩

/-- C42_start_partial: when a pull has the lock, nobody edits. -/
example (d : D) : ∃ s : State D, Reachable d s ∧ s.at_ 1 = .acquiring .pull [] ∧ ∀ q y, Inside s q y → y.editsMetadata = true → False := by
  let s0 : State D := ⟨fun _ => .idle, fun _ => [], [], d⟩
  have r0 : Reachable d s0 := .init
  have r1 := r0.step (.call s0 1 .pull rfl)
  have r2 := r1.step (.acquire _ 1 .pull .backup .exclusive [] rfl (by simp [s0]) rfl)
  exact ⟨_, r2, rfl, fun q y hy ey => C42_start_partial r2 1 q .pull y (.inl rfl) rfl hy ey⟩


/-- A backup that has finished writing: the verification and the garbage collection within it, and the distrust at its start. -/
example (d : D) : (∃ s : State D, Reachable d s ∧ s.at_ 1 = .running .backup [.gc, .verify]) ∧
    ∃ s : State D, Reachable d s ∧ s.at_ 1 = .running .backup [.distrust] := by
  let s0 : State D := ⟨fun _ => .idle, fun _ => [], [], d⟩
  have r0 : Reachable d s0 := .init
  have r1 := r0.step (.call s0 1 .backup rfl)
  have r2 := r1.step (.acquire _ 1 .backup .backup .exclusive [(.purge, .shared)] rfl (by simp [s0]) rfl)
  have r3 := r2.step (.acquire _ 1 .backup .purge .shared [] rfl (by simp [s0, put]) rfl)
  have r4 := r3.step (.enter _ 1 .backup rfl rfl)
  have r5 := r4.step (.nested _ 1 .backup [] .verify rfl rfl)
  have r6 := r5.step (.nested _ 1 .backup [.verify] .gc rfl rfl)
  have r5' := r4.step (.nested _ 1 .backup [] .distrust rfl rfl)
  exact ⟨⟨_, r6, rfl⟩, ⟨_, r5', rfl⟩⟩

end Verif.Locks
