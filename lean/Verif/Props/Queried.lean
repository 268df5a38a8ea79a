import Verif.Model.Queried
import Verif.Props.Callback
import Verif.Props.Push
/-!
# C125: requests served during a push, and peers that answer in any order; what the callback is told then (C93)
-/
namespace Verif.Queried
open Verif Verif.Repo Verif.Sync

/-! ## One request -/

/-- Two states of a push that agree on everything but the memory of the repository and the files of other revisions. -/
structure Like (U : String → Prop) (p q : Push) : Prop where
  srv : p.srv = q.srv
  purge : p.purge = q.purge
  error : p.error = q.error
  disk : ∀ u, U u → onDisk p.s.files u = onDisk q.s.files u

theorem Like.one {U : String → Prop} {p q : Push} (h : Like U p q) (pd : String → Option Int) (token job : String) (net : Net) (r : Rev) :
    Like U (pushOne pd token job net r p) (pushOne pd token job net r q) := by
  obtain ⟨s, srv, pu, er⟩ := p
  obtain ⟨s', srv', pu', er'⟩ := q
  obtain ⟨h1, h2, h3, h4⟩ := h
  dsimp only at h1 h2 h3 h4
  subst h1 h2 h3
  unfold pushOne
  dsimp only
  split
  · split
    · refine ⟨rfl, rfl, rfl, fun u hu => ?_⟩
      show onDisk (s.remove r true).files u = onDisk (s'.remove r true).files u
      rw [remove_force, remove_force]
      show onDisk (s.files.erase r.uuid) u = onDisk (s'.files.erase r.uuid) u
      rw [onDisk_erase, onDisk_erase, h4 u hu]
    · refine ⟨rfl, rfl, rfl, fun u hu => ?_⟩
      show onDisk (s.files.set _ _) u = onDisk (s'.files.set _ _) u
      rw [onDisk_set, onDisk_set, h4 u hu]
  · exact ⟨rfl, rfl, rfl, h4⟩

theorem pushOne_files (pd : String → Option Int) (token job : String) (net : Net) (r : Rev) (p : Push) (u : String) (hu : u ≠ r.uuid) :
    onDisk (pushOne pd token job net r p).s.files u = onDisk p.s.files u := by
  unfold pushOne
  split
  · split
    · show onDisk (p.s.remove r true).files u = _
      rw [remove_force]
      show onDisk (p.s.files.erase r.uuid) u = _
      rw [onDisk_erase, if_neg hu]
    · show onDisk (p.s.files.set _ _) u = _
      rw [onDisk_set]
      exact if_neg hu
  · rfl

theorem pushLoop_cons (pd : String → Option Int) (token job : String) (net : Nat → Net) (i : Nat) (r : Rev) (l : List Rev) (p : Push) :
    pushLoop pd token job net i (r :: l) p = pushLoop pd token job net (i + 1) l (pushOne pd token job (net i) r p) := rfl

theorem Like.loop {U : String → Prop} (pd : String → Option Int) (token job : String) (net : Nat → Net) : ∀ (l : List Rev) (i : Nat)
    {p q : Push}, Like U p q → Like U (pushLoop pd token job net i l p) (pushLoop pd token job net i l q)
  | [], _, _, _, h => h
  | r :: l, i, p, q, h => by
    rw [pushLoop_cons, pushLoop_cons]
    exact Like.loop pd token job net l (i + 1) (h.one pd token job (net i) r)

theorem pushPurge_s (pd : String → Option Int) (token job : String) (net : Net) (p : Push) : (pushPurge pd token job net p).s = p.s := by
  unfold pushPurge; split <;> rfl

theorem Like.last {U : String → Prop} {p q : Push} (h : Like U p q) (pd : String → Option Int) (token job : String) (net : Net) :
    Like U (pushPurge pd token job net p) (pushPurge pd token job net q) := by
  obtain ⟨s, srv, pu, er⟩ := p
  obtain ⟨s', srv', pu', er'⟩ := q
  obtain ⟨h1, h2, h3, h4⟩ := h
  dsimp only at h1 h2 h3 h4
  subst h1 h2 h3
  unfold pushPurge
  dsimp only
  split <;> exact ⟨rfl, rfl, rfl, h4⟩

theorem Like.trans {U : String → Prop} {p q r : Push} (h : Like U p q) (h' : Like U q r) : Like U p r :=
  ⟨h.srv.trans h'.srv, h.purge.trans h'.purge, h.error.trans h'.error, fun u hu => (h.disk u hu).trans (h'.disk u hu)⟩

/-! ## One peer -/

/-- The coroutine of a peer after the requests made so far, as the state of `pushLoop`. -/
def at_ (t : Task) (s : Repo) : Push := ⟨s, t.srv, t.purge, t.error⟩

/-- What the rest of the coroutine would make of this state if it ran alone. -/
def rest (pd : String → Option Int) (job : String) (t : Task) (s : Repo) : Push :=
  if t.purged then at_ t s
  else pushPurge pd t.token job (t.net (t.i + t.revs.length)) (pushLoop pd t.token job t.net t.i t.revs (at_ t s))

theorem rest_like {U : String → Prop} (pd : String → Option Int) (job : String) (t : Task) {s s' : Repo}
    (h : ∀ u, U u → onDisk s.files u = onDisk s'.files u) : Like U (rest pd job t s) (rest pd job t s') := by
  unfold rest
  split
  · exact ⟨rfl, rfl, rfl, h⟩
  · exact (Like.loop pd t.token job t.net t.revs t.i (p := at_ t s) (q := at_ t s') ⟨rfl, rfl, rfl, h⟩).last pd t.token job _

theorem rest_finished (pd : String → Option Int) (job : String) (t : Task) (s : Repo) (h : t.finished = true) :
    rest pd job t s = at_ t s := by
  unfold Task.finished at h
  rw [Bool.and_eq_true, List.isEmpty_iff] at h
  unfold rest
  split
  · rfl
  · rename_i hp
    have hpu : t.purge = false := by
      have := h.2
      cases hh : t.purge
      · rfl
      · rw [hh] at this; simp at this; exact absurd this hp
    rw [h.1]
    show pushPurge pd t.token job _ (at_ t s) = at_ t s
    unfold pushPurge
    have : (at_ t s).purge = false := hpu
    rw [this]; rfl

theorem setTask_self (tasks : String → Task) (p : String) (t : Task) : setTask tasks p t p = t := if_pos rfl
theorem setTask_ne (tasks : String → Task) {p q : String} (t : Task) (h : q ≠ p) : setTask tasks p t q = tasks q := if_neg h

theorem through_files (b : Bool) (s s' : Repo) : (through b s s').files = s'.files := by unfold through; split <;> rfl

/-- An answer leaves the tasks of the other peers alone. -/
theorem answer_other (pd : String → Option Int) (job p : String) (st : Run) {q : String} (h : q ≠ p) :
    (answer pd job p st).tasks q = st.tasks q := by
  unfold answer
  split
  · exact setTask_ne _ _ h
  · split
    · exact setTask_ne _ _ h
    · rfl

/-- An answer is the next step of the coroutine. -/
theorem answer_rest (pd : String → Option Int) (job p : String) (st : Run)
    (hp : (st.tasks p).purged = true → (st.tasks p).revs = []) :
    Like (fun _ => True) (rest pd job ((answer pd job p st).tasks p) (answer pd job p st).s) (rest pd job (st.tasks p) st.s) := by
  unfold answer
  split
  · rename_i r l he
    have hnp : (st.tasks p).purged = false := by
      cases hh : (st.tasks p).purged
      · rfl
      · rw [hp hh] at he; cases he
    unfold sendOne
    dsimp only
    rw [setTask_self]
    unfold rest
    dsimp only
    rw [if_neg (by rw [hnp]; decide), if_neg (by rw [hnp]; decide), he, pushLoop_cons, List.length_cons,
      Nat.add_right_comm (st.tasks p).i 1 l.length]
    refine Like.last (Like.loop pd _ job _ l _ ?_) pd _ job _
    refine ⟨rfl, rfl, rfl, fun u _ => ?_⟩
    show onDisk (through _ _ _).files u = _
    rw [through_files]; rfl
  · rename_i he
    split
    · rename_i hc
      rw [Bool.and_eq_true, Bool.not_eq_true'] at hc
      unfold sendPurge
      dsimp only
      rw [setTask_self]
      unfold rest
      rw [if_pos rfl, if_neg (by rw [hc.2]; decide), he]
      refine ⟨rfl, ?_, rfl, fun u _ => ?_⟩
      · show (st.tasks p).purge = _
        simp only [pushPurge]; split <;> rfl
      · rw [pushPurge_s]; rfl
    · exact ⟨rfl, rfl, rfl, fun _ _ => rfl⟩

/-- An answer changes only the file of a revision that is to be sent to this peer. -/
theorem answer_files (pd : String → Option Int) (job p : String) (st : Run) (u : String)
    (h : ∀ r ∈ (st.tasks p).revs, r.uuid ≠ u) : onDisk (answer pd job p st).s.files u = onDisk st.s.files u := by
  unfold answer
  split
  · rename_i r l he
    show onDisk (through _ _ _).files u = _
    rw [through_files]
    exact pushOne_files pd _ job _ r _ u (fun e => h r (by rw [he]; simp) e.symm)
  · split <;> rfl

theorem answer_revs (pd : String → Option Int) (job p : String) (st : Run) :
    ((answer pd job p st).tasks p).revs = (st.tasks p).revs.tail := by
  unfold answer
  split
  · rename_i r l he
    show (setTask _ _ _ p).revs = _
    rw [setTask_self, he]; rfl
  · rename_i he
    split
    · show (setTask _ _ _ p).revs = _
      rw [setTask_self, he]; rfl
    · rw [he]; rfl

theorem answer_purged (pd : String → Option Int) (job p : String) (st : Run)
    (hp : (st.tasks p).purged = true → (st.tasks p).revs = []) :
    ((answer pd job p st).tasks p).purged = true → ((answer pd job p st).tasks p).revs = [] := by
  intro h
  rw [answer_revs]
  cases he : (st.tasks p).revs with
  | nil => rfl
  | cons r l =>
    have : ((answer pd job p st).tasks p).purged = (st.tasks p).purged := by
      unfold answer
      rw [he]
      show (setTask _ _ _ p).purged = _
      rw [setTask_self]
    rw [this] at h
    rw [hp h] at he; cases he

/-! ## All peers -/

/-- Whose revision it is. -/
def Owns (s0 : Repo) (p u : String) : Prop := ∃ r ∈ s0.history, r.uuid = u ∧ r.server = p

theorem Owns.unique {s0 : Repo} (h : Verif.Repo.Sync s0) {p q u : String} (hp : Owns s0 p u) (hq : Owns s0 q u) : p = q := by
  obtain ⟨r, h1, h2, h3⟩ := hp
  obtain ⟨r', g1, g2, g3⟩ := hq
  have : r = r' := eq_of_uuid h.nodup h1 g1 (h2.trans g2.symm)
  rw [← h3, ← g3, this]

/-- The state of a push that began with `s0`: each coroutine is where it would be if it ran alone. -/
structure Inv (pd : String → Option Int) (job : String) (peers : String → String × (Nat → Net) × Api.Server) (s0 : Repo) (st : Run) : Prop where
  revs : ∀ p, (st.tasks p).revs.Sublist (pendingFor p s0)
  purged : ∀ p, (st.tasks p).purged = true → (st.tasks p).revs = []
  rest : ∀ p, Like (Owns s0 p) (rest pd job (st.tasks p) st.s) (Sync.push pd p (peers p).1 job (peers p).2.1 s0 (peers p).2.2)
  none : ∀ u, (∀ p, ¬ Owns s0 p u) → onDisk st.s.files u = onDisk s0.files u

theorem pendingFor_owns {s0 : Repo} {p : String} {r : Rev} (h : r ∈ pendingFor p s0) : Owns s0 p r.uuid ∧ r ∈ s0.history := by
  unfold pendingFor at h
  rw [List.mem_filter, Bool.and_eq_true, decide_eq_true_iff] at h
  have hm : r ∈ s0.history := (List.filter_sublist (p := _)).subset h.1
  exact ⟨⟨r, hm, rfl, h.2.2⟩, hm⟩

theorem Inv.start (pd : String → Option Int) (job : String) (peers : String → String × (Nat → Net) × Api.Server) (s0 : Repo) :
    Inv pd job peers s0 (start peers s0) := by
  refine ⟨fun p => List.Sublist.refl _, ?_, ?_, fun _ _ => rfl⟩
  · intro p h; cases h
  · intro p
    have : Queried.rest pd job ((Queried.start peers s0).tasks p) (Queried.start peers s0).s =
        Sync.push pd p (peers p).1 job (peers p).2.1 s0 (peers p).2.2 := by
      show (if false = true then _ else _) = _
      rw [if_neg (by decide)]
      show pushPurge pd _ job ((peers p).2.1 (0 + (pendingFor p s0).length)) _ = _
      rw [Nat.zero_add]; rfl
    rw [this]
    exact ⟨rfl, rfl, rfl, fun _ _ => rfl⟩

theorem Inv.event {pd : String → Option Int} {job : String} {peers : String → String × (Nat → Net) × Api.Server} {s0 : Repo} {st : Run}
    (hs : Verif.Repo.Sync s0) (h : Inv pd job peers s0 st) (e : Event) : Inv pd job peers s0 (event pd job st e) := by
  cases e with
  | asked =>
    refine ⟨h.revs, h.purged, fun p => ?_, h.none⟩
    exact (rest_like (U := Owns s0 p) pd job (st.tasks p) (s := st.s.scan) (s' := st.s) (fun _ _ => rfl)).trans (h.rest p)
  | answer p =>
    show Inv pd job peers s0 (Queried.answer pd job p st)
    have hown : ∀ r ∈ (st.tasks p).revs, Owns s0 p r.uuid := fun r hr => (pendingFor_owns ((h.revs p).subset hr)).1
    refine ⟨fun q => ?_, fun q => ?_, fun q => ?_, fun u hu => ?_⟩
    · by_cases hq : q = p
      · subst hq; rw [answer_revs]; exact (List.tail_sublist _).trans (h.revs q)
      · rw [answer_other pd job p st hq]; exact h.revs q
    · by_cases hq : q = p
      · subst hq; exact answer_purged pd job q st (h.purged q)
      · rw [answer_other pd job p st hq]; exact h.purged q
    · by_cases hq : q = p
      · subst hq
        have := answer_rest pd job q st (h.purged q)
        exact Like.trans ⟨this.srv, this.purge, this.error, fun u _ => this.disk u trivial⟩ (h.rest q)
      · rw [answer_other pd job p st hq]
        refine (rest_like pd job (st.tasks q) (fun u hu => ?_)).trans (h.rest q)
        exact answer_files pd job p st u (fun r hr e => hq (Owns.unique hs hu (e ▸ hown r hr)))
    · rw [answer_files pd job p st u (fun r hr e => hu p (e ▸ hown r hr))]
      exact h.none u hu

theorem Inv.events {pd : String → Option Int} {job : String} {peers : String → String × (Nat → Net) × Api.Server} {s0 : Repo}
    (hs : Verif.Repo.Sync s0) : ∀ (es : List Event) {st : Run}, Inv pd job peers s0 st → Inv pd job peers s0 (es.foldl (Queried.event pd job) st)
  | [], _, h => h
  | e :: es, _, h => Inv.events hs es (h.event hs e)

/-- **C125** Whatever requests are served during a push and in whatever order the peers answer: when the push to a peer has ended, the
peer is in the state and the error is reported that the push to this peer alone gives (C50), and so are the files of all its
revisions; the files of other revisions are unchanged.  So this holds for all peers when all have ended. -/
theorem C125_push (pd : String → Option Int) (job : String) (peers : String → String × (Nat → Net) × Api.Server) (es : List Event)
    (s : Repo) (hs : Verif.Repo.Sync s) :
    (∀ p, ((push pd job peers es s).tasks p).finished = true →
      ((push pd job peers es s).tasks p).srv = (Sync.push pd p (peers p).1 job (peers p).2.1 s (peers p).2.2).srv ∧
      ((push pd job peers es s).tasks p).error = (Sync.push pd p (peers p).1 job (peers p).2.1 s (peers p).2.2).error ∧
      ∀ r ∈ s.history, r.server = p → onDisk (push pd job peers es s).s.files r.uuid =
        onDisk (Sync.push pd p (peers p).1 job (peers p).2.1 s (peers p).2.2).s.files r.uuid) ∧
    ∀ u, (∀ r ∈ s.history, r.uuid ≠ u) → onDisk (push pd job peers es s).s.files u = onDisk s.files u := by
  have h : Inv pd job peers s (push pd job peers es s) := Inv.events hs es (Inv.start pd job peers s)
  refine ⟨fun p hf => ?_, fun u hu => h.none u (fun p ⟨r, h1, h2, _⟩ => hu r h1 h2)⟩
  have hr := h.rest p
  rw [rest_finished pd job _ _ hf] at hr
  exact ⟨hr.srv, hr.error, fun r h1 h2 => hr.disk r.uuid ⟨r, h1, rfl, h2⟩⟩

/-- The requests a coroutine can still make. -/
def left (t : Task) : Nat := t.revs.length + (if t.purged then 0 else 1)

theorem answer_left (pd : String → Option Int) (job p : String) (st : Run) (hf : (st.tasks p).finished = false) :
    left ((answer pd job p st).tasks p) < left (st.tasks p) := by
  unfold answer
  split
  · rename_i r l he
    show left (setTask _ _ _ p) < _
    rw [setTask_self]
    unfold left
    rw [he, List.length_cons]
    show l.length + (if (st.tasks p).purged then 0 else 1) < _
    omega
  · rename_i he
    unfold Task.finished at hf
    rw [he, List.isEmpty_nil, Bool.true_and] at hf
    have hpu : (st.tasks p).purge = true ∧ (st.tasks p).purged = false := by
      cases h1 : (st.tasks p).purge <;> cases h2 : (st.tasks p).purged <;> rw [h1, h2] at hf <;> first | exact ⟨rfl, rfl⟩ | cases hf
    rw [hpu.1, hpu.2]
    show left (setTask _ _ _ p) < _
    rw [setTask_self]
    unfold left
    rw [hpu.2, he]; exact Nat.lt_succ_self 0

theorem answer_finished (pd : String → Option Int) (job p : String) (st : Run) (hf : (st.tasks p).finished = true) :
    answer pd job p st = st := by
  unfold Task.finished at hf
  rw [Bool.and_eq_true, List.isEmpty_iff] at hf
  unfold answer
  rw [hf.1]
  have : ((st.tasks p).purge && !(st.tasks p).purged) = false := by
    have := hf.2
    cases h1 : (st.tasks p).purge <;> cases h2 : (st.tasks p).purged <;> rw [h1, h2] at this <;> first | rfl | cases this
  rw [this]; rfl

theorem ends_loop (pd : String → Option Int) (job p : String) : ∀ (es : List Event) (st : Run),
    ((es.foldl (event pd job) st).tasks p).finished = true ∨
      left ((es.foldl (event pd job) st).tasks p) + (es.filter (fun e => decide (e = Event.answer p))).length ≤ left (st.tasks p)
  | [], st => Or.inr (Nat.le_refl _)
  | e :: es, st => by
    rw [List.foldl_cons]
    rcases ends_loop pd job p es (event pd job st e) with h | h
    · exact Or.inl h
    · cases e with
      | asked => exact Or.inr h
      | answer q =>
        by_cases hq : q = p
        · subst hq
          cases hf : (st.tasks q).finished
          · right
            have h1 : left ((event pd job st (Event.answer q)).tasks q) < left (st.tasks q) := answer_left pd job q st hf
            rw [List.filter_cons_of_pos (by simp), List.length_cons]
            omega
          · have h1 : event pd job st (Event.answer q) = st := answer_finished pd job q st hf
            rw [h1] at h ⊢
            left
            have keep : ∀ (l : List Event) (st : Run), (st.tasks q).finished = true →
                ((l.foldl (event pd job) st).tasks q).finished = true := by
              intro l
              induction l with
              | nil => intro st h; exact h
              | cons e l ih =>
                intro st h
                rw [List.foldl_cons]
                refine ih _ ?_
                cases e with
                | asked => exact h
                | answer r =>
                  show ((answer pd job r st).tasks q).finished = true
                  by_cases hr : q = r
                  · subst hr; rw [answer_finished pd job q st h]; exact h
                  · rw [answer_other pd job r st hr]; exact h
            exact keep es st hf
        · right
          have h1 : (event pd job st (Event.answer q)).tasks p = st.tasks p := answer_other pd job q st (fun e => hq e.symm)
          rw [h1] at h
          rw [List.filter_cons_of_neg (by simpa using hq)]
          exact h

/-- **C125** Every push ends, whatever is asked meanwhile: after one more answer of a peer than there are changes for it. -/
theorem C125_ends (pd : String → Option Int) (job p : String) (peers : String → String × (Nat → Net) × Api.Server) (es : List Event)
    (s : Repo) (h : (pendingFor p s).length < (es.filter (fun e => decide (e = Event.answer p))).length) :
    ((push pd job peers es s).tasks p).finished = true := by
  rcases ends_loop pd job p es (start peers s) with h1 | h1
  · exact h1
  · have h2 : left ((start peers s).tasks p) = (pendingFor p s).length + 1 := rfl
    rw [h2] at h1
    show ((es.foldl (event pd job) (start peers s)).tasks p).finished = true
    generalize (es.foldl (event pd job) (start peers s)).tasks p = t at *
    have h3 : left t = 0 := by omega
    unfold left at h3
    unfold Task.finished
    cases h4 : t.purged
    · rw [h4] at h3; simp at h3
    · rw [h4] at h3
      have : t.revs = [] := List.eq_nil_of_length_eq_zero (by simpa using h3)
      rw [this]; simp

/-! ## C93 -/

/-- Equal but for the tags that the peer is known to have. -/
def EqualUp (r x : Rev) : Prop := { r with origTags := ∅ } = { x with origTags := ∅ }

instance (r x : Rev) : Decidable (EqualUp r x) := inferInstanceAs (Decidable (_ = _))

/-- Memory and files during a push. -/
structure Told (st : Run) : Prop where
  named : Named st.s.files
  nodup : (st.s.history.map Rev.uuid).Nodup
  sync : st.stale = false → Verif.Repo.Sync st.s
  disk : ∀ r, onDisk st.s.files r.uuid = some r → ∃ x ∈ st.s.history, EqualUp r x
  memory : ∀ x ∈ st.s.history, (∃ r, onDisk st.s.files x.uuid = some r ∧ EqualUp r x) ∨
    (x.server ≠ "" ∧ x.tags = ∅ ∧ onDisk st.s.files x.uuid = none)
  waiting : ∀ p, ∀ r ∈ (st.tasks p).revs, onDisk st.s.files r.uuid = some r ∧ r.server = p ∧ p ≠ ""
  once : ∀ p, ((st.tasks p).revs.map Rev.uuid).Nodup

theorem EqualUp.refl (r : Rev) : EqualUp r r := rfl

theorem EqualUp.uuid {r x : Rev} (h : EqualUp r x) : r.uuid = x.uuid := by
  have := congrArg Rev.uuid h; exact this

theorem EqualUp.server {r x : Rev} (h : EqualUp r x) : r.server = x.server := by
  have := congrArg Rev.server h; exact this

theorem EqualUp.tags {r x : Rev} (h : EqualUp r x) : r.tags = x.tags := by
  have := congrArg Rev.tags h; exact this

/-- What is told if memory and directory agree. -/
theorem Told.of_sync {st : Run} (h : Verif.Repo.Sync st.s)
    (hw : ∀ p, ∀ r ∈ (st.tasks p).revs, onDisk st.s.files r.uuid = some r ∧ r.server = p ∧ p ≠ "")
    (ho : ∀ p, ((st.tasks p).revs.map Rev.uuid).Nodup) : Told st :=
  ⟨h.named, h.nodup, fun _ => h, fun r hr => ⟨r, (h.mem r).2 hr, rfl⟩,
    fun x hx => Or.inl ⟨x, (h.mem x).1 hx, rfl⟩, hw, ho⟩

theorem Told.start (peers : String → String × (Nat → Net) × Api.Server) {s0 : Repo} (h : Verif.Repo.Sync s0) :
    Told (start peers s0) := by
  refine Told.of_sync h ?_ ?_
  · intro p r hr
    have hr' : r ∈ pendingFor p s0 := hr
    obtain ⟨⟨_, _, _, _⟩, hm⟩ := pendingFor_owns hr'
    unfold pendingFor at hr'
    rw [List.mem_filter, Bool.and_eq_true, decide_eq_true_iff] at hr'
    refine ⟨(h.mem r).1 hm, hr'.2.2, ?_⟩
    have := hr'.2.1
    unfold Rev.pending at this
    rw [decide_eq_true_iff] at this
    rw [← hr'.2.2]; exact this.1
  · intro p
    exact h.nodup.sublist (List.Sublist.map _ (List.filter_sublist.trans List.filter_sublist))

/-- The two things an accepted request changes. -/
theorem pushOne_cases (pd : String → Option Int) (token job : String) (net : Net) (r : Rev) (p : Push) :
    (pushOne pd token job net r p).s = p.s ∨
    (r.tags = ∅ ∧ (pushOne pd token job net r p).s = p.s.drop r) ∨
    (pushOne pd token job net r p).s = p.s.store { r with origTags := r.tags } := by
  unfold pushOne
  split
  · split
    · rename_i h; right; left
      exact ⟨h, by show p.s.remove r true = _; rw [remove_force]⟩
    · right; right; rfl
  · left; rfl

theorem Told.asked {st : Run} (h : Told st) : Told { st with s := st.s.scan, stale := true } := by
  have hs : Verif.Repo.Sync st.s.scan := Verif.Repo.Sync.scan h.named
  exact Told.of_sync (st := { st with s := st.s.scan, stale := true }) hs h.waiting h.once

theorem Told.answer {st : Run} (h : Told st) (pd : String → Option Int) (job p : String) :
    Told (answer pd job p st) := by
  unfold Queried.answer
  split
  · rename_i r l he
    have hr := h.waiting p r (by rw [he]; simp)
    have hon := h.once p
    rw [he, List.map_cons, List.nodup_cons] at hon
    -- the revisions that wait are not touched
    have hwait : ∀ q, ∀ x ∈ (setTask st.tasks p { st.tasks p with
        i := (st.tasks p).i + 1, revs := l,
        srv := (pushOne pd (st.tasks p).token job ((st.tasks p).net (st.tasks p).i) r ⟨st.s, (st.tasks p).srv, (st.tasks p).purge, (st.tasks p).error⟩).srv
        purge := (pushOne pd (st.tasks p).token job ((st.tasks p).net (st.tasks p).i) r ⟨st.s, (st.tasks p).srv, (st.tasks p).purge, (st.tasks p).error⟩).purge
        error := (pushOne pd (st.tasks p).token job ((st.tasks p).net (st.tasks p).i) r ⟨st.s, (st.tasks p).srv, (st.tasks p).purge, (st.tasks p).error⟩).error } q).revs,
        x.uuid ≠ r.uuid ∧ onDisk st.s.files x.uuid = some x ∧ x.server = q ∧ q ≠ "" := by
      intro q x hx
      by_cases hq : q = p
      · subst hq
        rw [setTask_self] at hx
        have hx' : x ∈ l := hx
        refine ⟨fun e => hon.1 (e ▸ List.mem_map.2 ⟨x, hx', rfl⟩), h.waiting q x (by rw [he]; exact List.mem_cons_of_mem _ hx')⟩
      · rw [setTask_ne _ _ hq] at hx
        obtain ⟨g1, g2, g3⟩ := h.waiting q x hx
        refine ⟨fun e => hq ?_, g1, g2, g3⟩
        rw [e, hr.1] at g1
        cases g1
        exact g2.symm.trans hr.2.1
    have honce : ∀ q, (((sendOne pd job p r l st (st.tasks p)).tasks q).revs.map Rev.uuid).Nodup := by
      intro q
      show ((setTask _ _ _ q).revs.map Rev.uuid).Nodup
      by_cases hq : q = p
      · subst hq; rw [setTask_self]; exact hon.2
      · rw [setTask_ne _ _ hq]; exact h.once q
    have hs : (sendOne pd job p r l st (st.tasks p)).s = through st.stale st.s
      (pushOne pd (st.tasks p).token job ((st.tasks p).net (st.tasks p).i) r ⟨st.s, (st.tasks p).srv, (st.tasks p).purge, (st.tasks p).error⟩).s := rfl
    have hw' : ∀ q, ∀ x ∈ ((sendOne pd job p r l st (st.tasks p)).tasks q).revs,
        onDisk (sendOne pd job p r l st (st.tasks p)).s.files x.uuid = some x ∧ x.server = q ∧ q ≠ "" := by
      intro q x hx
      obtain ⟨g0, g1, g2, g3⟩ := hwait q x hx
      refine ⟨?_, g2, g3⟩
      rw [hs, through_files, pushOne_files pd _ job _ r _ _ g0]
      exact g1
    cases hst : st.stale
    · -- the objects are those in the history
      refine Told.of_sync ?_ hw' honce
      rw [hs, hst]
      show Verif.Repo.Sync (pushOne pd _ job _ r _).s
      have hsy := h.sync hst
      rcases pushOne_cases pd (st.tasks p).token job ((st.tasks p).net (st.tasks p).i) r
        ⟨st.s, (st.tasks p).srv, (st.tasks p).purge, (st.tasks p).error⟩ with e | ⟨_, e⟩ | e
      · rw [e]; exact hsy
      · rw [e]; exact hsy.drop r
      · rw [e]
        exact Verif.Callback.sync_store_uuid hsy (r := { r with origTags := r.tags }) (List.mem_map.2 ⟨r, (hsy.mem r).2 hr.1, rfl⟩)
    · have hhist : (sendOne pd job p r l st (st.tasks p)).s.history = st.s.history := by
        rw [hs, hst]; rfl
      have hfiles : (sendOne pd job p r l st (st.tasks p)).s.files = (pushOne pd (st.tasks p).token job ((st.tasks p).net (st.tasks p).i) r
          ⟨st.s, (st.tasks p).srv, (st.tasks p).purge, (st.tasks p).error⟩).s.files := by rw [hs, through_files]
      rcases pushOne_cases pd (st.tasks p).token job ((st.tasks p).net (st.tasks p).i) r
        ⟨st.s, (st.tasks p).srv, (st.tasks p).purge, (st.tasks p).error⟩ with e | ⟨ht, e⟩ | e
      · rw [e] at hfiles
        have hfiles' : (sendOne pd job p r l st (st.tasks p)).s.files = st.s.files := hfiles
        refine ⟨hfiles'.symm ▸ h.named, hhist.symm ▸ h.nodup, ?_, ?_, ?_, hw', honce⟩
        · intro hh; exact absurd hh (by show st.stale ≠ false; rw [hst]; decide)
        · rw [hfiles', hhist]; exact h.disk
        · rw [hfiles', hhist]; exact h.memory
      · rw [e] at hfiles
        have hfiles' : (sendOne pd job p r l st (st.tasks p)).s.files = st.s.files.erase r.uuid := hfiles
        refine ⟨hfiles'.symm ▸ h.named.erase _, hhist.symm ▸ h.nodup, ?_, ?_, ?_, hw', honce⟩
        · intro hh; exact absurd hh (by show st.stale ≠ false; rw [hst]; decide)
        · intro x hx
          rw [hfiles', onDisk_erase] at hx
          rw [hhist]
          split at hx
          · cases hx
          · exact h.disk x hx
        · intro x hx
          rw [hhist] at hx
          rw [hfiles', onDisk_erase]
          split
          · rename_i hxu
            right
            rcases h.memory x hx with ⟨y, hy, hyx⟩ | hn
            · rw [hxu, hr.1] at hy
              cases hy
              have h1 : r.server = x.server := hyx.server
              have h2 : r.tags = x.tags := hyx.tags
              refine ⟨?_, h2 ▸ ht, rfl⟩
              rw [← h1, hr.2.1]; exact hr.2.2
            · exact ⟨hn.1, hn.2.1, rfl⟩
          · exact h.memory x hx
      · rw [e] at hfiles
        have hfiles' : (sendOne pd job p r l st (st.tasks p)).s.files = st.s.files.set r.uuid ⟨false, { r with origTags := r.tags }⟩ := hfiles
        have hset : ∀ u, onDisk (sendOne pd job p r l st (st.tasks p)).s.files u =
            if u = r.uuid then some { r with origTags := r.tags } else onDisk st.s.files u := by
          intro u
          rw [hfiles']
          exact onDisk_set { r with origTags := r.tags } u
        refine ⟨hfiles'.symm ▸ h.named.set { r with origTags := r.tags }, hhist.symm ▸ h.nodup, ?_, ?_, ?_, hw', honce⟩
        · intro hh; exact absurd hh (by show st.stale ≠ false; rw [hst]; decide)
        · intro x hx
          rw [hset] at hx
          rw [hhist]
          split at hx
          · cases hx
            exact h.disk r hr.1
          · exact h.disk x hx
        · intro x hx
          rw [hhist] at hx
          rw [hset]
          split
          · rename_i hxu
            left
            rcases h.memory x hx with ⟨y, hy, hyx⟩ | hn
            · rw [hxu, hr.1] at hy
              cases hy
              exact ⟨_, rfl, hyx⟩
            · rw [hxu, hr.1] at hn; cases hn.2.2
          · exact h.memory x hx
  · rename_i he
    split
    · refine ⟨h.named, h.nodup, h.sync, h.disk, h.memory, ?_, ?_⟩
      · intro q x hx
        have hx' : x ∈ (setTask _ _ _ q).revs := hx
        by_cases hq : q = p
        · subst hq; rw [setTask_self] at hx'; exact h.waiting q x hx'
        · rw [setTask_ne _ _ hq] at hx'; exact h.waiting q x hx'
      · intro q
        show ((setTask _ _ _ q).revs.map Rev.uuid).Nodup
        by_cases hq : q = p
        · subst hq; rw [setTask_self]; exact h.once q
        · rw [setTask_ne _ _ hq]; exact h.once q
    · exact h

theorem Told.events (pd : String → Option Int) (job : String) : ∀ (es : List Event) {st : Run}, Told st →
    Told (es.foldl (event pd job) st)
  | [], _, h => h
  | .asked :: es, _, h => Told.events pd job es h.asked
  | .answer p :: es, _, h => Told.events pd job es (h.answer pd job p)

theorem stale_events (pd : String → Option Int) (job : String) : ∀ (es : List Event) (st : Run), Event.asked ∉ es → st.stale = false →
    (es.foldl (event pd job) st).stale = false
  | [], _, _, h => h
  | .asked :: es, _, hn, _ => absurd (List.mem_cons_self) hn
  | .answer p :: es, st, hn, h => by
    rw [List.foldl_cons]
    refine stale_events pd job es _ (fun hm => hn (List.mem_cons_of_mem _ hm)) ?_
    show (answer pd job p st).stale = false
    unfold answer
    split
    · exact h
    · split <;> exact h

/-- What `own` makes of it. -/
theorem own_told {same : Rev → Rev → Bool} {answers : List (String × Answer)} {sch : Schedule} {pd : String → Option Int}
    {now : String → Int} {job : String} {peers : String → String × (Nat → Net) × Api.Server} {es : List Event} {s : Repo} {st : Run}
    (hn : Named s.files) (ho : own same answers sch pd now job peers es s = some st) :
    ∃ s0, Verif.Repo.Sync s0 ∧ st = push pd job peers es s0 := by
  have h1 : Named s.scan.clean.files := (clean_complete (Sync.scan hn)).1.named
  have h2 := Verif.Callback.named_pull same answers s.scan.clean h1
  unfold own at ho
  split at ho
  · cases ho
  · rename_i s1 heq
    rw [heq] at h2
    have h3 := Verif.Callback.sync_expire sch pd now s1 h2
    split at ho
    · cases ho
    · rename_i s2 heq2
      rw [heq2] at h3
      cases ho
      exact ⟨s2, h3, rfl⟩

/-- **C93 (partial)** For a run with a backup of its own, with peers that answer the push in any order, and if no request reads the
directory during the push: the callback is told exactly the revisions whose metadata is in the directory, with the content of the
files. -/
theorem C93_any_order_partial (same : Rev → Rev → Bool) (answers : List (String × Answer)) (sch : Schedule) (pd : String → Option Int)
    (now : String → Int) (job : String) (peers : String → String × (Nat → Net) × Api.Server) (es : List Event) (s : Repo) (st : Run)
    (hn : Named s.files) (ho : own same answers sch pd now job peers es s = some st) (hq : Event.asked ∉ es) :
    (∀ r, r ∈ Callback.told st.s ↔ onDisk st.s.files r.uuid = some r) ∧ ((Callback.told st.s).map Rev.uuid).Nodup := by
  obtain ⟨s0, h0, rfl⟩ := own_told hn ho
  have h := (Told.events pd job es (Told.start peers h0)).sync (stale_events pd job es _ hq rfl)
  exact ⟨h.mem, h.nodup⟩

/-- **C93 (partial)** If requests that read the directory are served during the push, the callback is still told every revision whose
metadata is in the directory, once; every revision that is told is in the directory, or it is one of another server without tags, whose removal
the push has just reported to that server.  Only the tags that the other server is known to have (`orig_tags`) may be old. -/
theorem C93_queried_partial (same : Rev → Rev → Bool) (answers : List (String × Answer)) (sch : Schedule) (pd : String → Option Int)
    (now : String → Int) (job : String) (peers : String → String × (Nat → Net) × Api.Server) (es : List Event) (s : Repo) (st : Run)
    (hn : Named s.files) (ho : own same answers sch pd now job peers es s = some st) :
    (∀ r, onDisk st.s.files r.uuid = some r → ∃ x ∈ Callback.told st.s, { r with origTags := ∅ } = { x with origTags := ∅ }) ∧
    (∀ x ∈ Callback.told st.s, (∃ r, onDisk st.s.files x.uuid = some r ∧ { r with origTags := ∅ } = { x with origTags := ∅ }) ∨
      (x.server ≠ "" ∧ x.tags = ∅ ∧ onDisk st.s.files x.uuid = none)) ∧
    ((Callback.told st.s).map Rev.uuid).Nodup := by
  obtain ⟨s0, h0, rfl⟩ := own_told hn ho
  have h := Told.events pd job es (Told.start peers h0)
  exact ⟨h.disk, h.memory, h.nodup⟩


/-! ## A concrete case -/

/-- One peer, `peer`, with the repository of `Props/Push.lean`. -/
def exPeers : String → String × (Nat → Net) × Api.Server := fun p => if p = "peer" then ("secret", exNet, exOrigin) else ("", exNet, ⟨[], [], [], 0⟩)

/-- A repository with a revision of its own and one of a peer, which expires. -/
def exBefore : Repo := exRepo [exRev "eX" {"manual:y"} ∅ "", exRev "bX" {"daily"} {"daily"} "peer"]

def exAnswers : List (String × Answer) := [("peer", .revs [exRev "bX" {"daily"} {"daily"} "peer"])]

/-- A status request during the push, then the answers of the peer. -/
def exEvents : List Event := [.asked, .answer "peer", .answer "peer"]

/-- **C93 is false of the code** if a request for the status or the list of revisions is served while the push waits for the peer: the
revision of a peer that has been removed is gone from the directory and from the peer, but the callback is told of it. -/
theorem C93_false_status_request : ∃ (st : Run) (x : Rev), own sameRev exAnswers [] (fun _ => none) (fun _ => 0) "vm" exPeers exEvents exBefore = some st ∧
    (st.tasks "peer").finished = true ∧ (st.tasks "peer").error = false ∧ remoteRev (st.tasks "peer").srv "vm" x.uuid = none ∧
    onDisk st.s.files x.uuid = none ∧ x ∈ Callback.told st.s := by
  have h : ((own sameRev exAnswers [] (fun _ => none) (fun _ => 0) "vm" exPeers exEvents exBefore).map (fun st =>
      decide ((st.tasks "peer").finished = true ∧ (st.tasks "peer").error = false ∧ remoteRev (st.tasks "peer").srv "vm" "bX" = none ∧
        onDisk st.s.files "bX" = none ∧ exRev "bX" ∅ {"daily"} "peer" ∈ Callback.told st.s))) = some true := by decide +kernel
  cases hg : own sameRev exAnswers [] (fun _ => none) (fun _ => 0) "vm" exPeers exEvents exBefore with
  | none => rw [hg] at h; cases h
  | some st =>
    rw [hg] at h
    have h' := of_decide_eq_true (Option.some.inj h)
    exact ⟨st, exRev "bX" ∅ {"daily"} "peer", rfl, h'⟩

/-- Without the request the callback is told the revision that is left. -/
example : ((own sameRev exAnswers [] (fun _ => none) (fun _ => 0) "vm" exPeers [.answer "peer", .answer "peer"] exBefore).map
    (fun st => (Callback.told st.s).map Rev.uuid)) = some ["eX"] := by decide +kernel

/-- C93_any_order_partial, C93_queried_partial, C125_push, C125_ends for these. -/
example (st : Run) (h : own sameRev exAnswers [] (fun _ => none) (fun _ => 0) "vm" exPeers [.answer "peer", .answer "peer"] exBefore = some st) :=
  C93_any_order_partial _ _ _ _ _ _ _ _ _ st (exRepo_named (by decide +kernel)) h (by decide)
example (st : Run) (h : own sameRev exAnswers [] (fun _ => none) (fun _ => 0) "vm" exPeers exEvents exBefore = some st) :=
  C93_queried_partial _ _ _ _ _ _ _ _ _ st (exRepo_named (by decide +kernel)) h
example := C125_push (fun _ => none) "vm" exPeers exEvents exLocal.scan (.scan (exRepo_named (by decide +kernel)))
example : ((push (fun _ => none) "vm" exPeers [.answer "peer", .asked, .answer "peer", .answer "peer", .answer "peer", .answer "peer"] exLocal.scan).tasks "peer").finished = true :=
  C125_ends _ _ _ _ _ _ (by decide +kernel)


/-! ## The pull -/

theorem revsAndError_nodup {p : String} {a : Answer} {rest : List (String × Answer)} {s : Repo} (hu : UniqueIds ((p, a) :: rest) s)
    {L : List Rev} {err : Bool} (h : a.revsAndError = some (L, err)) :
    (L.map Rev.uuid).Nodup ∧ (∀ r ∈ L, r.server = p) ∧ (∀ r ∈ L, ∀ x, onDisk s.files r.uuid = some x → x.server = p) ∧
    ∀ p' L', (p', Answer.revs L') ∈ rest → ∀ r ∈ L, ∀ r' ∈ L', r.uuid = r'.uuid → p = p' := by
  cases a with
  | revs l =>
    cases h
    exact ⟨(hu.own p L (by simp)).1, (hu.own p L (by simp)).2, hu.here p L (by simp),
      fun p' L' hm => hu.across p L p' L' (by simp) (by simp [hm])⟩
  | status c => cases h; simp
  | client => cases h; simp
  | connection => cases h
  | raised => cases h

theorem UniqueIds.files {answers : List (String × Answer)} {s s' : Repo} (h : UniqueIds answers s)
    (hf : ∀ u, onDisk s'.files u = onDisk s.files u) : UniqueIds answers s' :=
  ⟨h.peers, h.named, h.own, fun p L hm r hr x hx => h.here p L hm r hr x (by rw [← hf]; exact hx), h.across⟩

/-- After the part of one peer, memory and directory agree on the revisions of the others. -/
theorem pullSingle_keeps {same : Rev → Rev → Bool} (hsame : SameSound same) {p : String} {a : Answer} {rest : List (String × Answer)}
    {s : Repo} (hs : PeerSync (((p, a) :: rest).map Prod.fst) s) (hu : UniqueIds ((p, a) :: rest) s) :
    PeerSync (rest.map Prod.fst) (pullSingle same p a s).2 ∧ UniqueIds rest (pullSingle same p a s).2 := by
  have hpr : p ∉ rest.map Prod.fst := (List.nodup_cons.1 hu.peers).1
  have hsub : ∀ {s' : Repo}, PeerSync (((p, a) :: rest).map Prod.fst) s' → PeerSync (rest.map Prod.fst) s' :=
    fun h => ⟨h.named, h.nodup, fun x hx => h.mem x (List.mem_cons_of_mem _ hx)⟩
  have husub : UniqueIds rest s :=
    ⟨(List.nodup_cons.1 hu.peers).2, fun h => hu.named (List.mem_cons_of_mem _ h), fun p' L' h => hu.own p' L' (List.mem_cons_of_mem _ h),
      fun p' L' h => hu.here p' L' (List.mem_cons_of_mem _ h),
      fun p' L' p'' L'' h h' => hu.across p' L' p'' L'' (List.mem_cons_of_mem _ h) (List.mem_cons_of_mem _ h')⟩
  cases ha : a.revsAndError with
  | none =>
    have he : (pullSingle same p a s).2 = s := by
      simp only [pullSingle]
      split
      · rfl
      · rw [ha]
    rw [he]
    exact ⟨hsub hs, husub⟩
  | some Le =>
    obtain ⟨L, err⟩ := Le
    obtain ⟨l1, l2, l3, l4⟩ := revsAndError_nodup hu ha
    obtain ⟨s1, s2, s3, s4⟩ := pullSingle_spec hsame (List.mem_cons_self) hs ha l1 (peer := p) (ps := p :: rest.map Prod.fst)
    have other : ∀ x, x.server ≠ p → (onDisk (pullSingle same p a s).2.files x.uuid = some x ↔ onDisk s.files x.uuid = some x) := by
      intro x hxp
      rw [s4]
      cases hf : L.find? (fun y => decide (y.uuid = x.uuid)) with
      | some y =>
        have hy := List.mem_of_find?_eq_some hf
        have hyu := List.find?_some hf
        simp only [decide_eq_true_eq] at hyu
        dsimp only
        constructor
        · intro h; cases h; exact absurd (l2 x hy) hxp
        · intro h; exact absurd (l3 y hy x (by rw [hyu]; exact h)) hxp
      | none =>
        dsimp only
        by_cases hk : s.history.any (fun y => decide (y.server = p) && decide (y.uuid = x.uuid)) = true
        · rw [if_pos hk]
          obtain ⟨y, hy, hyx⟩ := List.any_eq_true.1 hk
          rw [Bool.and_eq_true, decide_eq_true_iff, decide_eq_true_iff] at hyx
          constructor
          · intro h; cases h
          · intro h
            have := (hs.mem y (by rw [hyx.1]; exact List.mem_cons_self)).1 hy
            rw [hyx.2, h] at this
            cases this; exact absurd hyx.1 hxp
        · rw [if_neg hk]
    refine ⟨⟨s2, ?_, ?_⟩, ?_⟩
    · rw [s3]; exact hs.nodup.sublist (List.Sublist.map _ List.filter_sublist)
    · intro x hx
      have hxp : x.server ≠ p := by rintro rfl; exact hpr hx
      rw [other x hxp, s3, List.mem_filter]
      constructor
      · rintro ⟨h, _⟩; exact (hs.mem x (List.mem_cons_of_mem _ hx)).1 h
      · intro h; exact ⟨(hs.mem x (List.mem_cons_of_mem _ hx)).2 h, by simp [hxp]⟩
    · refine ⟨husub.peers, husub.named, husub.own, ?_, husub.across⟩
      intro p' L' hm r hr x hx
      have hxu : x.uuid = r.uuid := Named.uuid s2 hx
      rw [← hxu] at hx
      by_cases hxp : x.server = p
      · rw [s4] at hx
        cases hf : L.find? (fun y => decide (y.uuid = x.uuid)) with
        | some y =>
          rw [hf] at hx
          dsimp only at hx
          cases hx
          have := l4 p' L' hm x (List.mem_of_find?_eq_some hf) r hr hxu
          rw [hxp, this]
        | none =>
          rw [hf] at hx
          dsimp only at hx
          split at hx
          · cases hx
          · rename_i hk
            have hd := (hs.mem x (by rw [hxp]; exact List.mem_cons_self)).2 hx
            exact absurd (List.any_eq_true.2 ⟨x, hd, by simp [hxp]⟩) hk
      · exact husub.here p' L' hm r hr x (by rw [← hxu]; exact (other x hxp).1 hx)

/-- The part of a peer depends on the memory only as far as it agrees with the directory. -/
theorem pullSingle_alike {same : Rev → Rev → Bool} (hsame : SameSound same) {p : String} {a : Answer} {rest : List (String × Answer)}
    {s t : Repo} (hs : PeerSync (((p, a) :: rest).map Prod.fst) s) (ht : PeerSync (((p, a) :: rest).map Prod.fst) t)
    (hu : UniqueIds ((p, a) :: rest) s) (hd : ∀ u, onDisk s.files u = onDisk t.files u) :
    (pullSingle same p a s).1 = (pullSingle same p a t).1 ∧
    ∀ u, onDisk (pullSingle same p a s).2.files u = onDisk (pullSingle same p a t).2.files u := by
  cases ha : a.revsAndError with
  | none =>
    simp only [pullSingle]
    split
    · exact ⟨rfl, hd⟩
    · rw [ha]; exact ⟨rfl, hd⟩
  | some Le =>
    obtain ⟨L, err⟩ := Le
    obtain ⟨l1, l2, l3, l4⟩ := revsAndError_nodup hu ha
    obtain ⟨s1, s2, s3, s4⟩ := pullSingle_spec hsame (List.mem_cons_self) hs ha l1 (peer := p) (ps := p :: rest.map Prod.fst)
    obtain ⟨t1, t2, t3, t4⟩ := pullSingle_spec hsame (List.mem_cons_self) ht ha l1 (peer := p) (ps := p :: rest.map Prod.fst)
    refine ⟨s1.trans t1.symm, fun u => ?_⟩
    rw [s4, t4]
    have hany : ∀ {s' : Repo}, PeerSync (((p, a) :: rest).map Prod.fst) s' →
        (s'.history.any (fun x => decide (x.server = p) && decide (x.uuid = u)) = true ↔ ∃ x, onDisk s'.files u = some x ∧ x.server = p) := by
      intro s' h'
      rw [List.any_eq_true]
      constructor
      · rintro ⟨x, hx, hxx⟩
        rw [Bool.and_eq_true, decide_eq_true_iff, decide_eq_true_iff] at hxx
        refine ⟨x, ?_, hxx.1⟩
        rw [← hxx.2]; exact (h'.mem x (by rw [hxx.1]; exact List.mem_cons_self)).1 hx
      · rintro ⟨x, hx, hxp⟩
        have hxu := Named.uuid h'.named hx
        refine ⟨x, (h'.mem x (by rw [hxp]; exact List.mem_cons_self)).2 (by rw [hxu]; exact hx), by simp [hxp, hxu]⟩
    cases L.find? (fun y => decide (y.uuid = u)) with
    | some y => rfl
    | none =>
      dsimp only
      have hc : (s.history.any (fun x => decide (x.server = p) && decide (x.uuid = u)) = true) ↔
          (t.history.any (fun x => decide (x.server = p) && decide (x.uuid = u)) = true) := by
        rw [hany hs, hany ht, hd]
      by_cases hk : s.history.any (fun x => decide (x.server = p) && decide (x.uuid = u)) = true
      · rw [if_pos hk, if_pos (hc.1 hk)]
      · rw [if_neg hk, if_neg (fun h => hk (hc.2 h))]
        exact hd u

theorem pullPeers_alike {same : Rev → Rev → Bool} (hsame : SameSound same) : ∀ (es : List (Option (String × Answer))) (s t : Repo),
    PeerSync ((es.filterMap id).map Prod.fst) s → PeerSync ((es.filterMap id).map Prod.fst) t → UniqueIds (es.filterMap id) s →
    (∀ u, onDisk s.files u = onDisk t.files u) →
    (pullPeers same es s).1 = (Sync.pullPeers same (es.filterMap id) t).1 ∧
    ∀ u, onDisk (pullPeers same es s).2.files u = onDisk (Sync.pullPeers same (es.filterMap id) t).2.files u
  | [], _, _, _, _, _, hd => ⟨rfl, hd⟩
  | none :: es, s, t, hs, ht, hu, hd => by
    have h : Verif.Repo.Sync s.scan := Verif.Repo.Sync.scan hs.named
    exact pullPeers_alike hsame es s.scan t ⟨h.named, h.nodup, fun x _ => h.mem x⟩ ht (UniqueIds.files hu (fun _ => rfl)) hd
  | some (p, a) :: es, s, t, hs, ht, hu, hd => by
    have hf : (some (p, a) :: es).filterMap id = (p, a) :: es.filterMap id := rfl
    rw [hf] at hs ht hu ⊢
    obtain ⟨k1, k2⟩ := pullSingle_alike hsame hs ht hu hd
    obtain ⟨a1, a2⟩ := pullSingle_keeps hsame hs hu
    obtain ⟨b1, b2⟩ := pullSingle_keeps hsame ht (UniqueIds.files hu (fun u => (hd u).symm))
    obtain ⟨i1, i2⟩ := pullPeers_alike hsame es _ _ a1 b1 a2 k2
    simp only [pullPeers, Sync.pullPeers]
    generalize pullSingle same p a s = g at *
    generalize pullSingle same p a t = g' at *
    obtain ⟨g1, g2⟩ := g
    obtain ⟨g1', g2'⟩ := g'
    dsimp only at k1 k2 i1 i2
    subst k1
    cases g1 with
    | error e => exact ⟨rfl, k2⟩
    | ok b =>
      dsimp only
      generalize pullPeers same es g2 = f at *
      generalize Sync.pullPeers same (es.filterMap id) g2' = f' at *
      obtain ⟨f1, f2⟩ := f
      obtain ⟨f1', f2'⟩ := f'
      dsimp only at i1 i2
      subst i1
      cases f1 with
      | error e => exact ⟨rfl, i2⟩
      | ok n => exact ⟨rfl, i2⟩

/-- **C125** Nor do such requests disturb a pull: the errors and all files are the same as without them. -/
theorem C125_pull (same : Rev → Rev → Bool) (hsame : SameSound same) (es : List (Option (String × Answer))) (s : Repo)
    (hn : Named s.files) (hu : UniqueIds (es.filterMap id) s) :
    (pull same es s.scan).1 = (Sync.pull same (es.filterMap id) s.scan).1 ∧
    ∀ u, onDisk (pull same es s.scan).2.files u = onDisk (Sync.pull same (es.filterMap id) s.scan).2.files u := by
  obtain ⟨d1, d2⟩ := removeDeadPeers_spec ((es.filterMap id).map Prod.fst) s.scan (Verif.Repo.Sync.scan hn)
  have hp : PeerSync ((es.filterMap id).map Prod.fst) (removeDeadPeers ((es.filterMap id).map Prod.fst) s.scan) :=
    ⟨d1.named, d1.nodup, fun x _ => d1.mem x⟩
  refine pullPeers_alike hsame es _ _ hp hp ⟨hu.peers, hu.named, hu.own, ?_, hu.across⟩ (fun _ => rfl)
  intro p L hm r hrL x hx
  have hxu := Named.uuid d1.named hx
  rw [← hxu] at hx
  exact hu.here p L hm r hrL x (by rw [← hxu]; exact ((d2 x).1 hx).1)

/-! ## The callback after a run that leaves the backup to a peer -/

theorem pullPeers_told (same : Rev → Rev → Bool) : ∀ (es : List (Option (String × Answer))) (s : Repo), Named s.files → ∀ r,
    r ∈ (pullPeers same es s).2.history → r ∈ s.history ∨
      ∃ es' es'', es = es' ++ none :: es'' ∧ onDisk (pullPeers same es' s).2.files r.uuid = some r := by
  intro es
  induction es with
  | nil => intro s _ r h; exact Or.inl h
  | cons e es ih =>
    intro s hn r h
    cases e with
    | none =>
      rcases ih s.scan hn r h with h1 | ⟨es', es'', he, h1⟩
      · exact Or.inr ⟨[], es, rfl, (Repo.scan_mem hn r).1 h1⟩
      · exact Or.inr ⟨none :: es', es'', by rw [he]; rfl, h1⟩
    | some pa =>
      obtain ⟨p, a⟩ := pa
      have h1 : ∀ y, y ∈ (pullSingle same p a s).2.history → y ∈ s.history := by
        intro y hy
        have := Callback.pullPeers_sub same [(p, a)] s y (by
          simp only [Sync.pullPeers]
          generalize pullSingle same p a s = g at *
          obtain ⟨g1, g2⟩ := g
          cases g1 <;> exact hy)
        exact this
      have hn1 : Named (pullSingle same p a s).2.files := by
        have := Callback.named_pullPeers same [(p, a)] s hn
        simp only [Sync.pullPeers] at this
        generalize pullSingle same p a s = g at *
        obtain ⟨g1, g2⟩ := g
        cases g1 <;> exact this
      have ih' := ih (pullSingle same p a s).2 hn1 r
      simp only [pullPeers] at h
      generalize hg : pullSingle same p a s = g at *
      obtain ⟨g1, g2⟩ := g
      cases g1 with
      | error e => exact Or.inl (h1 r h)
      | ok b =>
        dsimp only at h ih' h1
        have hh : r ∈ (pullPeers same es g2).2.history := by
          generalize pullPeers same es g2 = f at *
          obtain ⟨f1, f2⟩ := f
          cases f1 <;> exact h
        rcases ih' hh with h2 | ⟨es', es'', he, h2⟩
        · exact Or.inl (h1 r h2)
        · refine Or.inr ⟨some (p, a) :: es', es'', by rw [he]; rfl, ?_⟩
          have : (pullPeers same (some (p, a) :: es') s).2 = (pullPeers same es' g2).2 := by
            simp only [pullPeers, hg]
            generalize pullPeers same es' g2 = f at *
            obtain ⟨f1, f2⟩ := f
            cases f1 <;> rfl
          rw [this]; exact h2

/-- **C93 (partial)** After a run that has left the backup to a peer, each revision that the callback is told was in the directory, as it
is told, when the run was planned or when a request during the pull read the directory. -/
theorem C93_skipped_queried_partial (same : Rev → Rev → Bool) (es : List (Option (String × Answer))) (s s' : Repo) (hn : Named s.files)
    (ho : skipped same es s = some s') (r : Rev) (hr : r ∈ Callback.told s') : onDisk s.files r.uuid = some r ∨
    ∃ es' es'', es = es' ++ none :: es'' ∧
      onDisk (pullPeers same es' (removeDeadPeers ((es.filterMap id).map Prod.fst) s.scan)).2.files r.uuid = some r := by
  unfold skipped at ho
  split at ho
  · cases ho
  · rename_i heq
    cases ho
    have h0 : r ∈ (pullPeers same es (removeDeadPeers ((es.filterMap id).map Prod.fst) s.scan)).2.history := by
      have : (pull same es s.scan).2 = s' := by rw [heq]
      show r ∈ (pull same es s.scan).2.history
      rw [this]; exact hr
    rcases pullPeers_told same es (removeDeadPeers ((es.filterMap id).map Prod.fst) s.scan) (Callback.named_foldl_drop _ s.scan hn) r h0 with h1 | h1
    · exact Or.inl ((Repo.scan_mem hn r).1 (Callback.drop_sub _ _ _ h1))
    · exact Or.inr h1

/-- A new revision of a peer is told if a request is served after it has been pulled, and is not told otherwise. -/
example : (skipped sameRev [some ("p", .revs [exRev "b" {"x"} {"x"} "p"]), none, some ("q", .status 404)] (exRepo [exRev "a" {"x"} ∅ ""])).map
      (fun s => (Callback.told s).map Rev.uuid) = some ["a", "b"] ∧
    (skipped sameRev [none, some ("q", .status 404), some ("p", .revs [exRev "b" {"x"} {"x"} "p"])] (exRepo [exRev "a" {"x"} ∅ ""])).map
      (fun s => (Callback.told s).map Rev.uuid) = some ["a"] := by decide +kernel
example (s' : Repo) (h : skipped sameRev [some ("p", .revs [exRev "b" {"x"} {"x"} "p"]), none] (exRepo [exRev "a" {"x"} ∅ ""]) = some s')
    (r : Rev) (hr : r ∈ Callback.told s') := C93_skipped_queried_partial _ _ _ _ (exRepo_named (by decide +kernel)) h r hr

/-- C125_pull for two peers and a request in between. -/
example (same : Rev → Rev → Bool) (hsame : SameSound same) :=
  C125_pull same hsame [some ("p", .revs [exRev "b" {"x"} {"x"} "p"]), none, some ("q", .status 404)] (exRepo [exRev "a" {"x"} ∅ ""])
    (exRepo_named (by decide +kernel)) (by
      have key : ∀ p L, (p, Answer.revs L) ∈ [some ("p", Answer.revs [exRev "b" {"x"} {"x"} "p"]), none, some ("q", .status 404)].filterMap id →
          p = "p" ∧ L = [exRev "b" {"x"} {"x"} "p"] := by
        intro p L h
        simp only [List.filterMap_cons, id, List.filterMap_nil, List.mem_cons, Prod.mk.injEq, Answer.revs.injEq, reduceCtorEq,
          and_false, List.not_mem_nil, or_false] at h
        exact h
      refine ⟨by decide, by decide, ?_, ?_, ?_⟩
      · intro p L h
        obtain ⟨rfl, rfl⟩ := key p L h
        exact ⟨by decide, by decide⟩
      · intro p L h r hr x hx
        obtain ⟨rfl, rfl⟩ := key p L h
        rw [List.mem_singleton] at hr
        subst hr
        have : onDisk (exRepo [exRev "a" {"x"} ∅ ""]).files (exRev "b" {"x"} {"x"} "p").uuid = none := by decide +kernel
        rw [this] at hx
        cases hx
      · intro p L p' L' h h' _ _ _ _ _
        rw [(key p L h).1, (key p' L' h').1])

end Verif.Queried
