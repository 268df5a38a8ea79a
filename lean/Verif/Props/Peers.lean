import Verif.Props.Pull
import Verif.Props.Passes
import Verif.Model.PushStop
/-!
# C112: a peer that fails does not keep a job from expiring revisions and collecting garbage

False of the code for a peer that takes too long to answer (or answers nonsense): this exception is not caught, the pull fails, and with it
the run, before the expiry.  It is repeated as a failed run, with another backup.  The same exception in the push ends the run before the
garbage collection.
-/
namespace Verif.Daemon
open Verif Verif.Repo Verif.Daemon.Spec
open Verif.Sync (pull pullPeers pullSingle writeRemote dropUnknown removeDeadPeers)

/-- The exchange with the peers in a run of the job: the repository when the pull begins, and what the peers answer; the repository when the
push begins, and what becomes of the requests to the peers. -/
structure Exchange where
  s : Repo
  answers : List (String × Sync.Answer)
  pd : String → Option Int
  job : String
  expired : Repo
  cuts : List Callback.Cut

/-- The push of this exchange ends with an exception. -/
def Exchange.pushRaises (x : Exchange) : Prop := (Callback.pushCut x.pd x.job x.cuts x.expired).1 = true

/-- Pull and push of this run fail exactly if they end with an exception in this exchange; all other steps succeed, and the run was not left to
a peer. -/
structure OnlyPeersFail (same : Rev → Rev → Bool) (p : Pass) (x : Exchange) : Prop where
  connected : p.connected = true
  planned : ∃ t tags, p.planned = .ok (t, tags)
  own : p.triggered = true ∨ p.skip = false
  pulls : p.failing .pull = true ↔ ∀ n, (pull same x.answers x.s).1 ≠ .ok n
  pushes : p.failing .push = true ↔ x.pushRaises
  others : ∀ a, a ≠ .pull → a ≠ .push → p.failing a = false

theorem writeRemote_ends (same : Rev → Rev → Bool) (ids : List String) : ∀ (L : List Rev) (s : Repo),
    (∀ r ∈ L, r.uuid ∈ ids → ∃ x ∈ s.history, x.uuid = r.uuid) → (writeRemote same ids L s).1 = .ok ()
  | [], _, _ => rfl
  | r :: rest, s, h => by
    have ih : ∀ s', s'.history = s.history → (writeRemote same ids rest s').1 = .ok () := fun s' hs' =>
      writeRemote_ends same ids rest s' (fun r' hr' hi => by rw [hs']; exact h r' (by simp [hr']) hi)
    have hw : (s.writeInfo r).history = s.history := rfl
    simp only [writeRemote]
    split
    · rename_i hi
      obtain ⟨x, hx, hxu⟩ := h r (by simp) hi
      cases hf : s.history.find? (fun x => decide (x.uuid = r.uuid)) with
      | none => exact absurd (List.find?_eq_none.1 hf x hx) (by simp [hxu])
      | some y =>
        simp only []
        split
        · exact ih s rfl
        · exact ih _ hw
    · exact ih _ hw

theorem foldl_remove_keeps {x : Rev} : ∀ (l : List Rev) (s : Repo), x ∈ s.history → (∀ r ∈ l, r.uuid ≠ x.uuid) →
    x ∈ (l.foldl (fun s r => s.remove r true) s).history
  | [], _, h, _ => h
  | r :: rest, s, h, hn => by
    refine foldl_remove_keeps rest _ ?_ (fun r' hr' => hn r' (by simp [hr']))
    have := hn r (by simp)
    simp [Repo.remove, Repo.drop, h, Ne.symm this]

theorem pullSingle_ends (same : Rev → Rev → Bool) (peer : String) (a : Sync.Answer) (s : Repo) (h : a ≠ .raised) :
    ∃ b, (pullSingle same peer a s).1 = .ok b := by
  have hr : a.raises = false := by cases a <;> first | rfl | exact absurd rfl h
  simp only [pullSingle, hr, if_neg Bool.false_ne_true]
  cases hra : a.revsAndError with
  | none => exact ⟨true, rfl⟩
  | some x =>
    obtain ⟨L, err⟩ := x
    have hw := writeRemote_ends same ((s.history.filter (fun r => decide (r.server = peer))).map Rev.uuid) L (dropUnknown peer L s) (by
      intro r hrL hi
      obtain ⟨x, hx, hxu⟩ := List.mem_map.1 hi
      refine ⟨x, foldl_remove_keeps _ _ (List.mem_of_mem_filter hx) ?_, hxu⟩
      intro y hy hyx
      have hy2 := (List.mem_filter.1 hy).2
      rw [Bool.and_eq_true, Bool.not_eq_true', List.any_eq_false] at hy2
      exact hy2.2 r hrL (by simp [hyx, hxu]))
    dsimp only
    generalize hg : writeRemote same ((s.history.filter (fun r => decide (r.server = peer))).map Rev.uuid) L (dropUnknown peer L s) = g at *
    obtain ⟨g1, g2⟩ := g
    simp only at hw
    subst hw
    exact ⟨err, rfl⟩

theorem pullPeers_ends (same : Rev → Rev → Bool) : ∀ (answers : List (String × Sync.Answer)) (s : Repo),
    (∀ peer, (peer, Sync.Answer.raised) ∉ answers) → ∃ n, (pullPeers same answers s).1 = .ok n
  | [], _, _ => ⟨0, rfl⟩
  | (peer, a) :: rest, s, h => by
    obtain ⟨b, hb⟩ := pullSingle_ends same peer a s (fun ha => h peer (by simp [ha]))
    obtain ⟨n, hn⟩ := pullPeers_ends same rest (pullSingle same peer a s).2 (fun q hq => h q (by simp [hq]))
    simp only [pullPeers]
    generalize hg : pullSingle same peer a s = g at *
    obtain ⟨g1, g2⟩ := g
    simp only at hb hn
    subst hb
    simp only
    generalize hg' : pullPeers same rest g2 = g' at *
    obtain ⟨g1', g2'⟩ := g'
    simp only at hn
    subst hn
    exact ⟨_, rfl⟩

theorem pullPeers_raises (same : Rev → Rev → Bool) (peer : String) : ∀ (answers : List (String × Sync.Answer)) (s : Repo),
    (peer, Sync.Answer.raised) ∈ answers → ∀ n, (pullPeers same answers s).1 ≠ .ok n
  | [], _, h, _ => by cases h
  | (q, a) :: rest, s, h, n => by
    simp only [pullPeers]
    by_cases ha : a = .raised
    · subst ha; simp [pullSingle, Sync.Answer.raises]
    · have hm : (peer, Sync.Answer.raised) ∈ rest := by
        rcases List.mem_cons.1 h with h | h
        · cases h; exact absurd rfl ha
        · exact h
      have ih := pullPeers_raises same peer rest (pullSingle same q a s).2 hm
      generalize hg : pullSingle same q a s = g at *
      obtain ⟨g1, g2⟩ := g
      cases g1 with
      | error e => simp
      | ok b =>
        simp only at ih ⊢
        generalize hg' : pullPeers same rest g2 = g' at *
        obtain ⟨g1', g2'⟩ := g'
        cases g1' with
        | error e => simp
        | ok m => exact absurd rfl (ih m)

/-- A pull ends with an exception exactly if one of the peers takes too long or answers nonsense. -/
theorem pull_fails_iff (same : Rev → Rev → Bool) (answers : List (String × Sync.Answer)) (s : Repo) :
    (∀ n, (pull same answers s).1 ≠ .ok n) ↔ ∃ peer, (peer, Sync.Answer.raised) ∈ answers := by
  constructor
  · intro h
    by_contra hn
    obtain ⟨n, h2⟩ := pullPeers_ends same answers (removeDeadPeers (answers.map Prod.fst) s) (fun q hq => hn ⟨q, hq⟩)
    exact h n h2
  · rintro ⟨peer, h⟩ n
    exact pullPeers_raises same peer answers _ h n

/-- A push in which all answers come in time, or connections break, does not raise. -/
theorem push_ends (pd : String → Option Int) (job : String) : ∀ (cuts : List Callback.Cut) (s : Repo), (∀ c ∈ cuts, c.stop = none) →
    (Callback.pushCut pd job cuts s).1 = false
  | [], _, _ => rfl
  | c :: rest, s, h => by
    have hc := h c (by simp)
    have hn : ∀ (token name : String) (net : Nat → Sync.Net) (l : List Rev) (i : Nat) (p : Sync.Push),
        (Sync.pushLoopUntil pd token name net none i l p).1 = .ok () := by
      intro token name net l
      induction l with
      | nil => intro i p; rfl
      | cons r l ih => intro i p; simp only [Sync.pushLoopUntil, reduceCtorEq, if_false]; exact ih _ _
    have hu : (Sync.pushUntil pd c.peer.name c.peer.token job c.peer.net c.stop s c.peer.srv).1 = .ok () := by
      rw [hc]
      have h1 := hn c.peer.token job c.peer.net (Sync.pendingFor c.peer.name s) 0 ⟨s, c.peer.srv, false, false⟩
      unfold Sync.pushUntil
      generalize Sync.pushLoopUntil pd c.peer.token job c.peer.net none 0 (Sync.pendingFor c.peer.name s) ⟨s, c.peer.srv, false, false⟩ = g at *
      obtain ⟨g1, g2⟩ := g
      simp only at h1
      subst h1
      rfl
    simp only [Callback.pushCut]
    generalize Sync.pushUntil pd c.peer.name c.peer.token job c.peer.net c.stop s c.peer.srv = g at *
    obtain ⟨g1, g2⟩ := g
    simp only at hu
    subst hu
    exact push_ends pd job rest _ (fun c' hc' => h c' (by simp [hc']))

/-- What a run does in which nothing fails but the exchange with the peers. -/
theorem pass_peers {same : Rev → Rev → Bool} {p : Pass} {x : Exchange} (h : OnlyPeersFail same p x) (j : Retry) :
    ∃ t tags, p.planned = .ok (t, tags) ∧
    ((∃ peer, (peer, Sync.Answer.raised) ∈ x.answers) →
      (pass j p).1.filter visible = [.backup tags, .pull] ∧ (pass j p).2 = some (j.after false)) ∧
    ((∀ peer, (peer, Sync.Answer.raised) ∉ x.answers) → x.pushRaises →
      (pass j p).1.filter visible = [.backup tags, .pull, .expire, .push] ∧ (pass j p).2 = some (j.after false)) ∧
    ((∀ peer, (peer, Sync.Answer.raised) ∉ x.answers) → ¬ x.pushRaises →
      (pass j p).1.filter visible = [.backup tags, .pull, .expire, .push, .gc, .callback] ∧ (pass j p).2 = some (j.after true)) := by
  obtain ⟨t, tags, hp⟩ := h.planned
  have o := h.others
  have hpass : ∀ b b', p.failing .pull = b → p.failing .push = b' → (pass j p).1.filter visible =
      (if b then [Act.backup tags, .pull] else if b' then [Act.backup tags, .pull, .expire, .push]
        else [Act.backup tags, .pull, .expire, .push, .gc, .callback]) ∧
      (pass j p).2 = some (j.after (!b && !b')) := by
    intro b b' hb hb'
    have hs : runSteps p.failing (backupSteps p tags) = (if b then [Act.acquire p.fast, .clean, .backup tags, .scan, .cleanAfter, .pull]
        else if b' then [Act.acquire p.fast, .clean, .backup tags, .scan, .cleanAfter, .pull, .expire, .push]
        else backupSteps p tags, !b && !b') := by
      simp only [backupSteps, runSteps, o (.acquire p.fast) (by simp) (by simp), o .clean (by simp) (by simp), o (.backup tags) (by simp) (by simp),
        o .scan (by simp) (by simp), o .cleanAfter (by simp) (by simp), o .expire (by simp) (by simp), o .gc (by simp) (by simp),
        o .callback (by simp) (by simp), hb, hb']
      cases b <;> cases b' <;> rfl
    have ht : ∃ pre : List Act, pre.filter visible = [] ∧ tryBlock p (j.deadline p t) tags =
        (pre ++ (runSteps p.failing (backupSteps p tags)).1, (runSteps p.failing (backupSteps p tags)).2) := by
      unfold tryBlock
      by_cases htr : p.triggered = true
      · exact ⟨[], rfl, by simp [htr]⟩
      · have hsk : p.skip = false := h.own.resolve_left htr
        exact ⟨[Act.askPeers (j.deadline p t)], rfl, by simp [htr, hsk]⟩
    obtain ⟨pre, hpre, ht⟩ := ht
    simp only [pass, h.connected, hp, ht, hs, Bool.true_eq_false, if_false]
    refine ⟨?_, by trivial⟩
    simp only [List.filter_append, hpre]
    cases b <;> cases b' <;> rfl
  have hpull : (∀ peer, (peer, Sync.Answer.raised) ∉ x.answers) → p.failing .pull = false := by
    intro hr
    rw [← Bool.not_eq_true]
    intro hf
    obtain ⟨peer, hq⟩ := (pull_fails_iff same x.answers x.s).1 (h.pulls.1 hf)
    exact hr peer hq
  refine ⟨t, tags, hp, fun hr => ?_, fun hr hq => ?_, fun hr hq => ?_⟩
  · have := hpass true _ (h.pulls.2 ((pull_fails_iff same x.answers x.s).2 hr)) rfl
    simpa using this
  · have := hpass false true (hpull hr) (h.pushes.2 hq)
    simpa using this
  · have := hpass false false (hpull hr) (by rw [← Bool.not_eq_true]; exact fun hf => hq (h.pushes.1 hf))
    simpa using this

/-- **C112 (partial)** If peers cannot be reached, refuse the request or answer with an HTTP error, a run goes through all its steps, and the
next one is due when the schedule says.  Missing: a peer that takes too long, see `C112_false_hanging_peer` and `C112_false_hanging_push`. -/
theorem C112_goes_on_partial (same : Rev → Rev → Bool) (p : Pass) (x : Exchange) (h : OnlyPeersFail same p x) (j : Retry)
    (ha : ∀ peer, (peer, Sync.Answer.raised) ∉ x.answers) (hc : ∀ c ∈ x.cuts, c.stop = none) :
    ∃ t tags, p.planned = .ok (t, tags) ∧ (pass j p).1.filter visible = intended true tags ∧ (pass j p).2 = some ⟨0, 0⟩ := by
  obtain ⟨t, tags, hp, _, _, h2⟩ := pass_peers h j
  have hq : ¬ x.pushRaises := by
    unfold Exchange.pushRaises
    rw [push_ends x.pd x.job x.cuts x.expired hc]
    simp
  exact ⟨t, tags, hp, (h2 ha hq).1, (h2 ha hq).2⟩

/-- **C112** As long as the push to some peer is broken off because an answer does not come in time, every run of the job makes a backup,
expires revisions and then fails: no garbage is collected and no callback called, however often it is repeated. -/
theorem C112_false_hanging_push (same : Rev → Rev → Bool) : ∀ (runs : List (Pass × Exchange)) (j : Retry),
    (∀ r ∈ runs, OnlyPeersFail same r.1 r.2 ∧ (∀ peer, (peer, Sync.Answer.raised) ∉ r.2.answers) ∧ r.2.pushRaises) →
    (runForever (some j) (runs.map Prod.fst)).map (fun acts => acts.filter visible) =
      runs.map (fun r => [Act.backup ((r.1.planned.toOption.map Prod.snd).getD ∅), .pull, .expire, .push])
  | [], _, _ => rfl
  | r :: rest, j, h => by
    obtain ⟨h1, h2, h3⟩ := h r (by simp)
    obtain ⟨t, tags, hp, _, hr, _⟩ := pass_peers h1 j
    obtain ⟨ha, hb⟩ := hr h2 h3
    have ih := C112_false_hanging_push same rest (j.after false) (fun r' hr' => h r' (by simp [hr']))
    simp only [List.map_cons, runForever, ha, hb, ih, hp]
    rfl

theorem runForever_hanging (same : Rev → Rev → Bool) : ∀ (runs : List (Pass × Exchange)) (j : Retry),
    (∀ r ∈ runs, OnlyPeersFail same r.1 r.2 ∧ ∃ peer, (peer, Sync.Answer.raised) ∈ r.2.answers) →
    (runForever (some j) (runs.map Prod.fst)).map (fun acts => acts.filter visible) =
      runs.map (fun r => [Act.backup ((r.1.planned.toOption.map Prod.snd).getD ∅), .pull])
  | [], _, _ => rfl
  | r :: rest, j, h => by
    obtain ⟨h1, h2⟩ := h r (by simp)
    obtain ⟨t, tags, hp, hr, _⟩ := pass_peers h1 j
    obtain ⟨ha, hb⟩ := hr h2
    have ih := runForever_hanging same rest (j.after false) (fun r' hr' => h r' (by simp [hr']))
    simp only [List.map_cons, runForever, ha, hb, ih, hp]
    rfl

/-- **C112** As long as one peer takes too long to answer, every run of the job makes a backup and then fails: it expires nothing, pushes
nothing, collects no garbage and calls no callback, however often it is repeated; after the first one, the next is at most six hours later. -/
theorem C112_false_hanging_peer (same : Rev → Rev → Bool) (runs : List (Pass × Exchange))
    (h : ∀ r ∈ runs, OnlyPeersFail same r.1 r.2 ∧ ∃ peer, (peer, Sync.Answer.raised) ∈ r.2.answers) :
    (runForever (some Retry.init) (runs.map Prod.fst)).map (fun acts => acts.filter visible) =
        runs.map (fun r => [Act.backup ((r.1.planned.toOption.map Prod.snd).getD ∅), .pull]) ∧
    ∀ (j : Retry) (p : Pass) (x : Exchange), OnlyPeersFail same p x → (∃ peer, (peer, Sync.Answer.raised) ∈ x.answers) →
      ∃ j', (pass j p).2 = some j' ∧ ∀ (q : Pass) (planned : Int), j'.deadline q planned ≤ q.now + seconds (6 * 60 * 60) := by
  refine ⟨runForever_hanging same runs Retry.init h, ?_⟩
  intro j p x hx hr
  obtain ⟨t, tags, _, h1, _⟩ := pass_peers hx j
  refine ⟨_, (h1 hr).2, ?_⟩
  intro q planned
  have : (j.after false).errors ≠ 0 := by simp [Retry.after]
  simp only [Retry.deadline, this, ne_eq, not_false_eq_true, if_true, Retry.after, Bool.false_eq_true, if_false]
  have : min (2 ^ (j.errors + 1)) (6 * 60) * 60 ≤ 6 * 60 * 60 := Nat.mul_le_mul_right _ (Nat.min_le_right _ _)
  simp only [seconds]
  omega

/-- A run of a job at `n` hours, in which only the peers can fail: in the pull or in the push. -/
def exHungPass (hang hangPush : Bool) (n : Int) : Pass :=
  { connected := true, planned := .ok (n * 3600000000, {"daily"}), now := n * 3600000000, triggered := false, skip := false, fast := true,
    failing := fun a => (hang && decide (a = .pull)) || (hangPush && decide (a = .push)) }

/-- Of three peers the second does not answer in time, or all of them have other troubles; in the push the first request to `q` gets no
answer in time, or is answered. -/
def exHungExchange (hang hangPush : Bool) : Exchange :=
  ⟨(Sync.exRepo [Sync.exRev "a" {"daily"} ∅ "", Sync.exRev "b" {"daily"} {"daily"} "q"]).scan,
    [("p", .status 500), ("q", if hang then .raised else .connection), ("r", .client)], fun _ => none, "vm",
    (Sync.exRepo [Sync.exRev "a" {"daily"} ∅ "", Sync.exRev "b" ∅ {"daily"} "q"]).scan,
    [⟨⟨"p", "secret", fun _ => .ok, ⟨[], [], [], 0⟩⟩, none⟩,
     ⟨⟨"q", "secret", fun _ => .requestLost, ⟨[], [], [], 0⟩⟩, if hangPush then some 0 else none⟩]⟩

theorem exHung_fails (hang hangPush : Bool) (n : Int) : OnlyPeersFail Sync.sameRev (exHungPass hang hangPush n) (exHungExchange hang hangPush) := by
  refine ⟨rfl, ⟨_, _, rfl⟩, .inr rfl, ?_, ?_, fun a ha hb => by simp [exHungPass, ha, hb]⟩
  · rw [pull_fails_iff]
    cases hang with
    | true => simp [exHungPass, exHungExchange]
    | false => simp [exHungPass, exHungExchange]
  · have h1 : ∀ b, (exHungPass b hangPush n).failing .push = hangPush := by intro b; cases b <;> cases hangPush <;> rfl
    rw [h1]
    unfold Exchange.pushRaises
    have h2 : ∀ b b', (Callback.pushCut (exHungExchange b b').pd (exHungExchange b b').job (exHungExchange b b').cuts (exHungExchange b b').expired).1 =
        b' := by decide +kernel
    rw [h2]

/-- The theorems apply: three runs with a peer that hangs, two with one that hangs in the push, and one with peers that fail in other ways. -/
example : (runForever (some Retry.init) [exHungPass true true 0, exHungPass true false 1, exHungPass true false 2]).map (fun acts => acts.filter visible) =
      [[.backup {"daily"}, .pull], [.backup {"daily"}, .pull], [.backup {"daily"}, .pull]] ∧
    (runForever (some Retry.init) [exHungPass false true 0, exHungPass false true 1]).map (fun acts => acts.filter visible) =
      [[.backup {"daily"}, .pull, .expire, .push], [.backup {"daily"}, .pull, .expire, .push]] ∧
    (pass Retry.init (exHungPass false false 0)).1.filter visible = intended true {"daily"} := by
  have h1 := (C112_false_hanging_peer Sync.sameRev
    [(exHungPass true true 0, exHungExchange true true), (exHungPass true false 1, exHungExchange true false),
     (exHungPass true false 2, exHungExchange true false)] (by
      intro r hr
      have : ∃ b n, r.1 = exHungPass true b n ∧ r.2 = exHungExchange true b := by
        simp only [List.mem_cons, List.not_mem_nil, or_false] at hr
        rcases hr with rfl | rfl | rfl
        · exact ⟨_, _, rfl, rfl⟩
        · exact ⟨_, _, rfl, rfl⟩
        · exact ⟨_, _, rfl, rfl⟩
      obtain ⟨b, n, h, h2⟩ := this
      rw [h, h2]
      exact ⟨exHung_fails true b n, "q", by simp [exHungExchange]⟩)).1
  have h3 := C112_false_hanging_push Sync.sameRev
    [(exHungPass false true 0, exHungExchange false true), (exHungPass false true 1, exHungExchange false true)] Retry.init (by
      intro r hr
      have : ∃ n, r.1 = exHungPass false true n ∧ r.2 = exHungExchange false true := by
        simp only [List.mem_cons, List.not_mem_nil, or_false] at hr
        rcases hr with rfl | rfl
        · exact ⟨_, rfl, rfl⟩
        · exact ⟨_, rfl, rfl⟩
      obtain ⟨n, h, h2⟩ := this
      rw [h, h2]
      refine ⟨exHung_fails false true n, by simp [exHungExchange], ?_⟩
      unfold Exchange.pushRaises
      decide +kernel)
  obtain ⟨t, tags, hp, h2, _⟩ := C112_goes_on_partial Sync.sameRev (exHungPass false false 0) (exHungExchange false false) (exHung_fails false false 0)
    Retry.init (by simp [exHungExchange]) (by simp [exHungExchange])
  refine ⟨h1, h3, ?_⟩
  cases hp
  exact h2

end Verif.Daemon
