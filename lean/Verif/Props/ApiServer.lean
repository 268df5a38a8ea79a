import Verif.Model.ApiServer
import Verif.Props.Api
/-!
# C92: the settings of the API after a reload
-/
namespace Verif.ApiServer
open Verif

/-! ## Specification -/

/-- The settings that have been read last. -/
def latest (c : Conf) : List Ev → Conf
  | [] => c
  | .reload c' :: es => latest c' es
  | _ :: es => latest c es

/-- No reload comes while an address is being opened or closed. -/
def Undisturbed : Api → List Ev → Prop
  | _, [] => True
  | a, e :: es => ((∃ c, e = .reload c) → a.phase = .waiting) ∧ ∀ b, step a e = some b → Undisturbed b es

/-- `s` is an address the settings ask for. -/
def Wanted (c : Conf) (s : Site) : Prop := s.1 ∈ c.addrs ∧ s.1 ≠ "" ∧ s.2 = c.port ∧ c.port ≠ 0

/-- Exactly the tokens of the settings are accepted, and requests are answered at exactly the addresses asked for. -/
def InForce (c : Conf) (a : Api) : Prop := a.tokens = c.tokens ∧ ∀ s, s ∈ a.listening ↔ Wanted c s

theorem mem_bind (c : Conf) (s : Site) : s ∈ c.bind ↔ Wanted c s := by
  obtain ⟨x, p⟩ := s
  simp only [Conf.bind, Wanted, List.mem_map, List.mem_filter, Bool.and_eq_true, decide_eq_true_eq, Prod.mk.injEq]
  constructor
  · rintro ⟨y, ⟨h1, h2, h3⟩, rfl, rfl⟩; exact ⟨h1, h2, rfl, h3⟩
  · rintro ⟨h1, h2, rfl, h3⟩; exact ⟨x, ⟨h1, h2, h3⟩, rfl, rfl⟩

/-! ## The invariant -/

/-- `c` are the settings that were taken up last. -/
structure Inv (c : Conf) (a : Api) : Prop where
  waiting : a.phase = .waiting → (∀ s, s ∈ a.listening ↔ s ∈ a.sites) ∧ (a.flag = false → InForce c a)
  opening : ∀ b r s, a.phase = .opening b r s → b = c.bind ∧ a.tokens = c.tokens ∧ s ∈ a.sites ∧
    (∀ x, x ∈ a.listening ↔ x ∈ a.sites ∧ x ≠ s) ∧ ∀ x ∈ b, x ∈ r ∨ x ∈ a.sites
  closing : ∀ b r s, a.phase = .closing b r s → b = c.bind ∧ a.tokens = c.tokens ∧ s ∉ b ∧
    (∀ x, x ∈ a.listening ↔ x ∈ a.sites) ∧ (∀ x ∈ b, x ∈ a.sites) ∧ ∀ x ∈ a.sites, x ∈ b ∨ x ∈ r ∨ x = s

theorem Inv.closeNext {c : Conf} : ∀ (r : List Site) {a : Api}, a.tokens = c.tokens → (∀ x, x ∈ a.listening ↔ x ∈ a.sites) →
    (∀ x ∈ c.bind, x ∈ a.sites) → (∀ x ∈ a.sites, x ∈ c.bind ∨ x ∈ r) → Inv c (closeNext c.bind r a)
  | [], a, ht, hl, hb, hs => by
    refine ⟨fun _ => ⟨hl, fun _ => ⟨ht, fun s => ?_⟩⟩, fun _ _ _ h => (by simp [ApiServer.closeNext] at h),
      fun _ _ _ h => (by simp [ApiServer.closeNext] at h)⟩
    rw [← mem_bind]
    constructor
    · intro h
      rcases hs s ((hl s).1 h) with h | h
      · exact h
      · cases h
    · intro h; exact (hl s).2 (hb s h)
  | s :: r, a, ht, hl, hb, hs => by
    simp only [ApiServer.closeNext]
    split
    · rename_i hm
      refine Inv.closeNext r ht hl hb ?_
      intro x hx
      rcases hs x hx with h | h
      · exact Or.inl h
      · rcases List.mem_cons.1 h with rfl | h
        · exact Or.inl hm
        · exact Or.inr h
    · rename_i hm
      refine ⟨fun h => (by cases h), fun _ _ _ h => (by cases h), ?_⟩
      intro b r' s' h
      cases h
      refine ⟨rfl, ht, hm, hl, hb, ?_⟩
      intro x hx
      rcases hs x hx with h | h
      · exact Or.inl h
      · rcases List.mem_cons.1 h with rfl | h
        · exact Or.inr (Or.inr rfl)
        · exact Or.inr (Or.inl h)

theorem Inv.openNext {c : Conf} : ∀ (r : List Site) {a : Api}, a.tokens = c.tokens → (∀ x, x ∈ a.listening ↔ x ∈ a.sites) →
    (∀ x ∈ c.bind, x ∈ r ∨ x ∈ a.sites) → Inv c (openNext c.bind r a)
  | [], a, ht, hl, hb => by
    simp only [ApiServer.openNext]
    refine Inv.closeNext _ ht hl ?_ (fun x hx => Or.inr hx)
    intro x hx
    rcases hb x hx with h | h
    · cases h
    · exact h
  | s :: r, a, ht, hl, hb => by
    simp only [ApiServer.openNext]
    split
    · rename_i hm
      refine Inv.openNext r ht hl ?_
      intro x hx
      rcases hb x hx with h | h
      · rcases List.mem_cons.1 h with rfl | h
        · exact Or.inr hm
        · exact Or.inl h
      · exact Or.inr h
    · rename_i hm
      refine ⟨fun h => (by cases h), ?_, fun _ _ _ h => (by cases h)⟩
      intro b r' s' h
      cases h
      refine ⟨rfl, ht, by simp, ?_, ?_⟩
      · intro x
        show x ∈ a.listening ↔ x ∈ a.sites ++ [s] ∧ x ≠ s
        rw [hl]
        constructor
        · intro h
          exact ⟨List.mem_append_left _ h, fun e => hm (e ▸ h)⟩
        · rintro ⟨h, hne⟩
          rcases List.mem_append.1 h with h | h
          · exact h
          · exact absurd (List.mem_singleton.1 h) hne
      · intro x hx
        rcases hb x hx with h | h
        · rcases List.mem_cons.1 h with rfl | h
          · right; show x ∈ a.sites ++ [x]; simp
          · exact Or.inl h
        · right; exact List.mem_append_left _ h

theorem closeNext_conf (b : List Site) : ∀ (r : List Site) (a : Api), (closeNext b r a).conf = a.conf
  | [], _ => rfl
  | s :: r, a => by
    simp only [closeNext]
    split
    · exact closeNext_conf b r a
    · rfl

theorem openNext_conf (b : List Site) : ∀ (r : List Site) (a : Api), (openNext b r a).conf = a.conf
  | [], a => closeNext_conf b _ a
  | s :: r, a => by
    simp only [openNext]
    split
    · exact openNext_conf b r a
    · rfl

/-- The settings taken up last, after an event. -/
def taken (a : Api) (c : Conf) : Ev → Conf
  | .wake => a.conf
  | _ => c

theorem Inv.step {c : Conf} {a b : Api} {e : Ev} (h : Inv c a) (hs : step a e = some b) :
    Inv (taken a c e) b := by
  cases e with
  | reload c' =>
    simp only [ApiServer.step, Option.some.injEq] at hs
    subst hs
    refine ⟨fun hp => ⟨(h.waiting hp).1, fun hf => by cases hf⟩, h.opening, h.closing⟩
  | wake =>
    simp only [ApiServer.step] at hs
    split at hs
    · rename_i hp _
      cases hs
      exact Inv.openNext a.conf.bind (a := { a with tokens := a.conf.tokens }) rfl (h.waiting hp).1 (fun x hx => Or.inl hx)
    · cases hs
  | done =>
    simp only [ApiServer.step] at hs
    split at hs
    · rename_i bd r s hp
      cases hs
      obtain ⟨rfl, ht, hm, hl, hb⟩ := h.opening _ _ _ hp
      refine Inv.openNext r (a := { a with listening := a.listening ++ [s] }) ht ?_ hb
      intro x
      show x ∈ a.listening ++ [s] ↔ x ∈ a.sites
      rw [List.mem_append, List.mem_singleton, hl]
      constructor
      · rintro (h | rfl)
        · exact h.1
        · exact hm
      · intro h
        by_cases hx : x = s
        · exact Or.inr hx
        · exact Or.inl ⟨h, hx⟩
    · rename_i bd r s hp
      cases hs
      obtain ⟨rfl, ht, hm, hl, hb, hr⟩ := h.closing _ _ _ hp
      refine Inv.closeNext r (a := { a with listening := a.listening.filter (· ≠ s), sites := a.sites.filter (· ≠ s) }) ht ?_ ?_ ?_
      · intro x; simp [hl]
      · intro x hx
        show x ∈ a.sites.filter (· ≠ s)
        rw [List.mem_filter]
        exact ⟨hb x hx, by simp; intro e; exact hm (e ▸ hx)⟩
      · intro x hx
        have hx : x ∈ a.sites.filter (· ≠ s) := hx
        rw [List.mem_filter] at hx
        rcases hr x hx.1 with h | h | h
        · exact Or.inl h
        · exact Or.inr h
        · simp [h] at hx
    · cases hs
  | failed =>
    simp only [ApiServer.step] at hs
    split at hs
    · rename_i hp
      cases hs
      exact ⟨fun h => (by cases h), fun _ _ _ h => (by cases h), fun _ _ _ h => (by cases h)⟩
    · cases hs
      exact ⟨fun h => (by cases h), fun _ _ _ h => (by cases h), fun _ _ _ h => (by cases h)⟩
    · cases hs

theorem step_conf {a b : Api} {e : Ev} (hs : step a e = some b) : b.conf = latest a.conf [e] := by
  cases e with
  | reload c' => simp only [step, Option.some.injEq] at hs; subst hs; rfl
  | wake =>
    simp only [step] at hs
    split at hs
    · cases hs; exact openNext_conf _ _ _
    · cases hs
  | done =>
    simp only [step] at hs
    split at hs
    · cases hs; exact openNext_conf _ _ _
    · cases hs; exact closeNext_conf _ _ _
    · cases hs
  | failed =>
    simp only [step] at hs
    split at hs
    · cases hs; rfl
    · cases hs; rfl
    · cases hs

theorem latest_cons (c : Conf) (e : Ev) (es : List Ev) : latest c (e :: es) = latest (latest c [e]) es := by
  cases e <;> rfl

/-- The settings in the daemon are those of the last reload. -/
theorem runs_conf : ∀ (evs : List Ev) {a b : Api}, runs a evs = some b → b.conf = latest a.conf evs
  | [], a, b, h => by cases h; rfl
  | e :: es, a, b, h => by
    simp only [runs] at h
    obtain ⟨m, hm, h⟩ := Option.bind_eq_some_iff.1 h
    rw [runs_conf es h, step_conf hm, ← latest_cons]

/-- In undisturbed runs the settings taken up last are the current ones, unless the loop waits with a set event. -/
def Cur (a : Api) : Prop := Inv a.conf a

theorem Cur.step {a b : Api} {e : Ev} (h : Cur a) (hd : (∃ c, e = .reload c) → a.phase = .waiting) (hs : step a e = some b) :
    Cur b := by
  have hi := Inv.step h hs
  have hc := step_conf hs
  unfold Cur
  cases e with
  | reload c' =>
    have hp := hd ⟨c', rfl⟩
    simp only [ApiServer.step, Option.some.injEq] at hs
    subst hs
    refine ⟨fun _ => ⟨(h.waiting hp).1, fun hf => by cases hf⟩, ?_, ?_⟩
    · intro _ _ _ hx; rw [show a.phase = _ from hp] at hx; cases hx
    · intro _ _ _ hx; rw [show a.phase = _ from hp] at hx; cases hx
  | wake => rw [hc]; exact hi
  | done => rw [hc]; exact hi
  | failed => rw [hc]; exact hi

theorem Cur.runs : ∀ (evs : List Ev) {a b : Api}, Cur a → Undisturbed a evs → runs a evs = some b → Cur b
  | [], a, b, h, _, hr => by cases hr; exact h
  | e :: es, a, b, h, hu, hr => by
    simp only [ApiServer.runs] at hr
    obtain ⟨m, hm, hr⟩ := Option.bind_eq_some_iff.1 hr
    exact Cur.runs es (h.step hu.1 hm) (hu.2 m hm) hr

theorem Cur.new (c : Conf) : Cur (.new c) :=
  ⟨fun _ => ⟨by simp [Api.new], fun hf => by cases hf⟩, fun _ _ _ h => (by cases h), fun _ _ _ h => (by cases h)⟩

theorem Inv.runs : ∀ (evs : List Ev) {a b : Api} {c : Conf}, Inv c a → runs a evs = some b → ∃ c', Inv c' b
  | [], a, b, c, h, hr => by cases hr; exact ⟨c, h⟩
  | e :: es, a, b, c, h, hr => by
    simp only [ApiServer.runs] at hr
    obtain ⟨m, hm, hr⟩ := Option.bind_eq_some_iff.1 hr
    exact Inv.runs es (h.step hm) hr

/-! ## C92 -/

/-- **C92** When the API waits for the next reload, exactly the tokens of the configuration that was read last are accepted
and requests are answered at exactly its addresses, provided that no reload came while addresses were being opened or
closed. -/
theorem C92_in_force (c : Conf) (evs : List Ev) (a : Api) (hr : runs (.new c) evs = some a) (hu : Undisturbed (.new c) evs)
    (hp : a.phase = .waiting) (hf : a.flag = false) : InForce (latest c evs) a := by
  have h := Cur.runs evs (Cur.new c) hu hr
  have hc : a.conf = latest c evs := runs_conf evs hr
  rw [← hc]
  exact (h.waiting hp).2 hf

/-- **C92** Whatever came before, a token that the new configuration does not have is refused, and one that it has is
accepted, from the moment on at which the API takes up the reload. -/
theorem C92_tokens_at_once (a b : Api) (hs : step a .wake = some b) (q : Api.Request) :
    Api.authenticate b.tokens q = Api.authenticate a.conf.tokens q := by
  have ht : ∀ (bd r : List Site) (x : Api), (closeNext bd r x).tokens = x.tokens := by
    intro bd r
    induction r with
    | nil => intro x; rfl
    | cons s r ih => intro x; simp only [closeNext]; split; exact ih x; rfl
  have ho : ∀ (bd r : List Site) (x : Api), (openNext bd r x).tokens = x.tokens := by
    intro bd r
    induction r with
    | nil => intro x; exact ht _ _ _
    | cons s r ih => intro x; simp only [openNext]; split; exact ih x; rfl
  simp only [step] at hs
  split at hs
  · cases hs; simp only [begin, ho]
  · cases hs

/-- Closing addresses comes to an end. -/
theorem closes (c : Conf) : ∀ (n : Nat) (r : List Site), r.length ≤ n → ∀ (a : Api), Inv c (closeNext c.bind r a) →
    ∃ k b, runs (closeNext c.bind r a) (List.replicate k .done) = some b ∧ b.phase = .waiting ∧ b.flag = false := by
  intro n
  induction n with
  | zero =>
    intro r hn a _
    have : r = [] := List.length_eq_zero_iff.1 (by omega)
    subst this
    exact ⟨0, _, rfl, rfl, rfl⟩
  | succ n ih =>
    intro r hn a hi
    cases r with
    | nil => exact ⟨0, _, rfl, rfl, rfl⟩
    | cons s r =>
      have hn' : r.length ≤ n := by simp at hn; omega
      simp only [closeNext] at hi ⊢
      split
      · rename_i hm
        rw [if_pos hm] at hi
        exact ih r hn' a hi
      · rename_i hm
        rw [if_neg hm] at hi
        have hi' := Inv.step (e := .done) hi rfl
        obtain ⟨k, b, hk, hb⟩ := ih r hn' _ hi'
        refine ⟨k + 1, b, ?_, hb⟩
        rw [List.replicate_succ]
        simp only [runs, step, Option.bind_some]
        exact hk

/-- Opening addresses comes to an end. -/
theorem opens (c : Conf) : ∀ (r : List Site) (a : Api), Inv c (openNext c.bind r a) →
    ∃ k b, runs (openNext c.bind r a) (List.replicate k .done) = some b ∧ b.phase = .waiting ∧ b.flag = false := by
  intro r
  induction r with
  | nil => intro a hi; exact closes c _ a.sites (Nat.le_refl _) a hi
  | cons s r ih =>
    intro a hi
    simp only [openNext] at hi ⊢
    split
    · rename_i hm
      rw [if_pos hm] at hi
      exact ih a hi
    · rename_i hm
      rw [if_neg hm] at hi
      have hi' := Inv.step (e := .done) hi rfl
      obtain ⟨k, b, hk, hb⟩ := ih _ hi'
      refine ⟨k + 1, b, ?_, hb⟩
      rw [List.replicate_succ]
      simp only [runs, step, Option.bind_some]
      exact hk

theorem undisturbed_done : ∀ (k : Nat) (a : Api), Undisturbed a (List.replicate k .done)
  | 0, _ => trivial
  | k + 1, _ => ⟨fun ⟨_, h⟩ => by (cases h), fun b _ => undisturbed_done k b⟩

theorem latest_done (c : Conf) : ∀ k, latest c (List.replicate k .done) = c
  | 0 => rfl
  | k + 1 => latest_done c k

/-- **C92** A reload is taken up: whatever has happened before, if the API waits and a reload has come, then after finitely
many addresses have been opened or closed the new settings are in force. -/
theorem C92_takes_effect (c : Conf) (evs : List Ev) (a : Api) (hr : runs (.new c) evs = some a) (hp : a.phase = .waiting)
    (hf : a.flag = true) :
    ∃ k b, runs a (.wake :: List.replicate k .done) = some b ∧ b.phase = .waiting ∧ b.flag = false ∧ InForce (latest c evs) b := by
  obtain ⟨c', hi⟩ := Inv.runs evs (Cur.new c) hr
  have hw : step a .wake = some (begin a) := by simp only [step, hp, hf]
  have h1 : Inv a.conf (begin a) := by
    exact Inv.step hi hw
  obtain ⟨k, b, hk, hb⟩ := opens a.conf a.conf.bind { a with tokens := a.conf.tokens } h1
  have hk : runs (begin a) (List.replicate k .done) = some b := hk
  refine ⟨k, b, ?_, hb.1, hb.2, ?_⟩
  · simp only [runs, hw, Option.bind_some]; exact hk
  · have hcb : (begin a).conf = a.conf := openNext_conf _ _ _
    have h2 : Cur (begin a) := by unfold Cur; rw [hcb]; exact h1
    have h3 := Cur.runs _ h2 (undisturbed_done k _) hk
    have h4 : b.conf = latest c evs := by
      rw [runs_conf _ hk, latest_done, hcb]; exact runs_conf evs hr
    rw [← h4]
    exact (h3.waiting hb.1).2 hb.2

theorem closeNext_listening (b : List Site) : ∀ (r : List Site) (a : Api), (closeNext b r a).listening = a.listening
  | [], _ => rfl
  | s :: r, a => by
    simp only [closeNext]
    split
    · exact closeNext_listening b r a
    · rfl

theorem openNext_listening (b : List Site) : ∀ (r : List Site) (a : Api), (openNext b r a).listening = a.listening
  | [], a => closeNext_listening b _ a
  | s :: r, a => by
    simp only [openNext]
    split
    · exact openNext_listening b r a
    · rfl

/-- **C92** A reload does not interrupt the service at an address that stays configured: no event ends it. -/
theorem C92_uninterrupted (c : Conf) (evs : List Ev) (e : Ev) (a b : Api) (hr : runs (.new c) evs = some a)
    (hu : Undisturbed (.new c) evs) (hs : step a e = some b) (s : Site) (hl : s ∈ a.listening) (hw : Wanted (latest c evs) s) :
    s ∈ b.listening := by
  have h := Cur.runs evs (Cur.new c) hu hr
  have hc : a.conf = latest c evs := runs_conf evs hr
  rw [← hc, ← mem_bind] at hw
  cases e with
  | reload c' => simp only [step, Option.some.injEq] at hs; subst hs; exact hl
  | wake =>
    simp only [step] at hs
    split at hs
    · cases hs; simp only [begin, openNext_listening]; exact hl
    · cases hs
  | done =>
    simp only [step] at hs
    split at hs
    · cases hs; rw [openNext_listening]; exact List.mem_append_left _ hl
    · rename_i bd r s' hp
      cases hs
      obtain ⟨rfl, -, hm, -⟩ := h.closing _ _ _ hp
      rw [closeNext_listening]
      show s ∈ a.listening.filter (· ≠ s')
      rw [List.mem_filter]
      exact ⟨hl, by simp; intro e; exact hm (e ▸ hw)⟩
    · cases hs
  | failed =>
    simp only [step] at hs
    split at hs
    · cases hs; exact hl
    · cases hs; exact hl
    · cases hs

/-- **C92** A request to reload that is accepted makes the daemon reload exactly once and changes nothing else; no other
request makes it reload. -/
theorem C92_reload_request (pd : String → Option Int) (s : Api.Server) (q : Api.Request) :
    (Api.Authorized s.tokens q → q.route = .reload → Api.handle pd s q = (⟨204, []⟩, { s with reloads := s.reloads + 1 })) ∧
    (q.route ≠ .reload → (Api.handle pd s q).2.reloads = s.reloads) := by
  constructor
  · intro ha hq
    rw [← Api.authenticate_iff] at ha
    unfold Api.handle
    cases hx : Api.authenticate s.tokens q with
    | none => exact absurd hx ha
    | some c => rw [hq]; rfl
  · intro hq
    have hput : ∀ k n b, (s.put k n b).reloads = s.reloads := by intro k n b; cases k <;> rfl
    unfold Api.handle
    split
    · rfl
    · cases hr : q.route with
      | status f => cases f <;> rfl
      | reload => exact absurd hr hq
      | jobs => rfl
      | runJob n => simp only [Api.dispatch, Api.runJob]; split <;> rfl
      | backups => rfl
      | purge n =>
        simp only [Api.dispatch, Api.runPurge]
        split
        · rfl
        · exact hput _ _ _
      | touch n =>
        simp only [Api.dispatch, Api.touchBackup]
        split
        · rfl
        · exact hput _ _ _
      | revs n c =>
        simp only [Api.dispatch, Api.getRevs]
        split
        · rfl
        · exact hput _ _ _
      | putTags n spec body au =>
        cases body with
        | garbage => rfl
        | obj o w =>
          cases o with
          | none => rfl
          | some o =>
            cases w with
            | none => rfl
            | some w =>
              simp only [Api.dispatch, Api.putTags]
              split
              · rfl
              · split
                · exact hput _ _ _
                · exact hput _ _ _
      | other c => rfl

/-! ## What the proviso excludes, and a failing address -/

/-- The old configuration: a token that is to be revoked. -/
def exOld : Conf := ⟨[("secret", "peer1")], ["::1"], 6023⟩

/-- The first reload: another address. -/
def exMoved : Conf := ⟨[("secret", "peer1")], ["10.0.0.1"], 6023⟩

/-- The second reload: the token is gone. -/
def exRevoked : Conf := ⟨[("other", "peer1")], ["10.0.0.1"], 6023⟩

/-- **C92** A reload that comes while addresses are being opened or closed is lost: the API waits for the next one, and
still accepts the token that was revoked. -/
theorem C92_reload_lost : ∃ evs a, runs (.new exOld) evs = some a ∧ a.phase = .waiting ∧ a.flag = false ∧
    latest exOld evs = exRevoked ∧ Api.Authorized a.tokens ⟨some "Bearer secret", .backups⟩ ∧
    ¬ Api.Authorized exRevoked.tokens ⟨some "Bearer secret", .backups⟩ := by
  refine ⟨[.wake, .done, .reload exMoved, .wake, .reload exRevoked, .done, .done],
    ⟨exRevoked, false, exOld.tokens, [("10.0.0.1", 6023)], [("10.0.0.1", 6023)], .waiting⟩, ?_, rfl, rfl, rfl, ?_, ?_⟩
  · decide +kernel
  · rw [← Api.authenticate_iff]; decide +kernel
  · rw [← Api.authenticate_iff]; decide +kernel

/-- **C92** If an address cannot be opened, the API does not take up any later reload: tokens and addresses stay as they
are for good. -/
theorem C92_failed_address (a b : Api) (hp : a.phase = .dead) (evs : List Ev) : runs a evs = some b →
    b.tokens = a.tokens ∧ b.listening = a.listening ∧ b.phase = .dead := by
  induction evs generalizing a with
  | nil => intro h; cases h; exact ⟨rfl, rfl, hp⟩
  | cons e es ih =>
    intro h
    simp only [runs] at h
    obtain ⟨m, hm, h⟩ := Option.bind_eq_some_iff.1 h
    cases e with
    | reload c =>
      simp only [step, Option.some.injEq] at hm
      subst hm
      exact ih { a with conf := c, flag := true } hp h
    | wake => simp only [step, hp] at hm; cases hm
    | done => simp only [step, hp] at hm; cases hm
    | failed => simp only [step, hp] at hm; cases hm

/-- That happens, with a token that is revoked later. -/
example : ∃ evs a, runs (.new exOld) evs = some a ∧ a.phase = .dead ∧ ("::1", 6023) ∈ a.listening ∧
    latest exOld evs = exRevoked ∧ a.tokens = exOld.tokens :=
  ⟨[.wake, .done, .reload exMoved, .wake, .failed, .reload exRevoked],
    ⟨exRevoked, true, exOld.tokens, [("::1", 6023), ("10.0.0.1", 6023)], [("::1", 6023)], .dead⟩, by decide +kernel, rfl,
    by decide, rfl, rfl⟩

/-- A test for `Undisturbed`. -/
def calm : Api → List Ev → Bool
  | _, [] => true
  | a, e :: es => (match e with | .reload _ => decide (a.phase = .waiting) | _ => true) && ((step a e).all (fun b => calm b es))

theorem undisturbed_of : ∀ (evs : List Ev) (a : Api), calm a evs = true → Undisturbed a evs
  | [], _, _ => trivial
  | e :: es, a, h => by
    simp only [calm, Bool.and_eq_true] at h
    refine ⟨?_, ?_⟩
    · rintro ⟨c, rfl⟩
      exact of_decide_eq_true h.1
    · intro b hb
      rw [hb] at h
      exact undisturbed_of es b h.2

/-- An undisturbed run with two reloads that ends with the last settings in force. -/
example : ∃ evs a, runs (.new exOld) evs = some a ∧ Undisturbed (.new exOld) evs ∧ a.phase = .waiting ∧ a.flag = false ∧
    latest exOld evs = exRevoked ∧ a.listening = [("10.0.0.1", 6023)] ∧ a.tokens = exRevoked.tokens := by
  refine ⟨[.wake, .done, .reload exMoved, .wake, .done, .done, .reload exRevoked, .wake],
    ⟨exRevoked, false, exRevoked.tokens, [("10.0.0.1", 6023)], [("10.0.0.1", 6023)], .waiting⟩, by decide +kernel, ?_, rfl, rfl,
    rfl, rfl, rfl⟩
  exact undisturbed_of _ _ (by decide +kernel)

/-! ### The theorems of this file applied -/

/-- C92_in_force: the last of the configurations. -/
example (a : Api) (hr : runs (.new exOld) [.wake, .done, .reload exMoved, .wake, .done, .done, .reload exRevoked, .wake] = some a)
    (hp : a.phase = .waiting) (hf : a.flag = false) :=
  C92_in_force exOld _ a hr (undisturbed_of _ _ (by decide +kernel)) hp hf

/-- C92_tokens_at_once: a token is revoked; the server stops accepting it as soon as it wakes up. -/
example : ∃ a, runs (.new exOld) [.wake, .done, .reload exRevoked] = some a ∧ (step a .wake).isSome = true ∧
    Api.authenticate a.tokens ⟨some "Bearer secret", .backups⟩ ≠ none ∧ ∀ b, step a .wake = some b →
    Api.authenticate b.tokens ⟨some "Bearer secret", .backups⟩ = Api.authenticate exRevoked.tokens ⟨some "Bearer secret", .backups⟩ := by
  refine ⟨⟨exRevoked, true, exOld.tokens, [("::1", 6023)], [("::1", 6023)], .waiting⟩, by decide +kernel, by decide +kernel,
    by decide +kernel, fun b hb => C92_tokens_at_once _ b hb _⟩

/-- C92_takes_effect: the new address and the new token. -/
example : ∃ a, runs (.new exOld) [.wake, .done, .reload exRevoked] = some a ∧
    ∃ k b, runs a (.wake :: List.replicate k .done) = some b ∧ b.phase = .waiting ∧ b.flag = false ∧ InForce exRevoked b :=
  ⟨_, rfl, C92_takes_effect exOld [.wake, .done, .reload exRevoked] _ rfl rfl rfl⟩

/-- C92_uninterrupted: an address is added; the old one keeps listening while that happens. -/
example : ∃ a b, runs (.new exOld) [.wake, .done, .reload ⟨exOld.tokens, ["::1", "10.0.0.1"], 6023⟩] = some a ∧ step a .wake = some b ∧
    ("::1", 6023) ∈ b.listening := by
  refine ⟨_, _, rfl, rfl, ?_⟩
  exact C92_uninterrupted exOld [.wake, .done, .reload ⟨exOld.tokens, ["::1", "10.0.0.1"], 6023⟩] .wake _ _ rfl
    (undisturbed_of _ _ (by decide +kernel)) rfl ("::1", 6023) (by decide) (by unfold Wanted; decide +kernel)

/-- C92_reload_request -/
example := (C92_reload_request (fun _ => none) ⟨[("secret", "cli")], [], [], 0⟩ ⟨some "Bearer secret", .reload⟩).1
  ⟨"secret", "cli", rfl, rfl, by decide⟩ rfl

/-- C92_failed_address: the API has ended because an address could not be opened; the token is revoked later. -/
example := C92_failed_address ⟨exMoved, true, exOld.tokens, [("::1", 6023), ("10.0.0.1", 6023)], [("::1", 6023)], .dead⟩
  ⟨exRevoked, true, exOld.tokens, [("::1", 6023), ("10.0.0.1", 6023)], [("::1", 6023)], .dead⟩ rfl [.reload exRevoked] (by decide +kernel)

end Verif.ApiServer
