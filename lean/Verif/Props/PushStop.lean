import Verif.Model.PushStop
import Verif.Props.Push
import Verif.Props.Callback
/-!
# C50, C51: pushing when a peer takes too long to answer
-/
namespace Verif.Sync
open Verif Verif.Repo Verif.Repo.Spec Verif.Api

/-- The answer to request number `k` does not arrive. -/
def cut (net : Nat → Net) (k : Nat) : Nat → Net := fun i => if i = k ∧ net i = .ok then .responseLost else net i

theorem cut_delivered {net : Nat → Net} {k i : Nat} {token name : String} {srv : Server} {r : Rev} :
    Delivered (cut net k i) token name srv r ↔ Delivered (net i) token name srv r := by
  unfold Delivered cut
  split
  · rename_i h; rw [h.2]; simp
  · rfl

theorem cut_confirmed {net : Nat → Net} {k i : Nat} {token name : String} {srv : Server} {r : Rev} :
    Confirmed (cut net k i) token name srv r ↔ (i ≠ k ∧ Confirmed (net i) token name srv r) := by
  unfold Confirmed cut
  by_cases h : i = k
  · cases hn : net i <;> simp [h]
    all_goals simp [← h, hn]
  · simp [h]

theorem pushLoopUntil_eq (pd : String → Option Int) (token name : String) (net : Nat → Net) (k : Nat) : ∀ (l : List Rev) (i : Nat) (p : Push),
    i ≤ k →
    (pushLoopUntil pd token name net (some k) i l p).2.s = (pushLoop pd token name (cut net k) i (l.take (k + 1 - i)) p).s ∧
    (pushLoopUntil pd token name net (some k) i l p).2.srv = (pushLoop pd token name (cut net k) i (l.take (k + 1 - i)) p).srv ∧
    (pushLoopUntil pd token name net (some k) i l p).2.purge = (pushLoop pd token name (cut net k) i (l.take (k + 1 - i)) p).purge ∧
    (pushLoopUntil pd token name net (some k) i l p).1 = (if k < i + l.length then .error .unexpected else .ok ()) := by
  intro l
  induction l with
  | nil => intro i p h; simp [pushLoopUntil, pushLoop, Nat.not_lt.2 h]
  | cons r rest ih =>
    intro i p h
    by_cases hk : k = i
    · subst hk
      have e : k + 1 - k = 1 := by omega
      have hc : cut net k k ≠ .ok := by
        unfold cut
        split
        · simp
        · rename_i hn; intro h2; exact hn ⟨rfl, h2⟩
      have hs : (send pd (cut net k k) (putRequest token name r) p.srv).1 = none ∧
          (send pd (cut net k k) (putRequest token name r) p.srv).2 = (send pd (net k) (putRequest token name r) p.srv).2 := by
        unfold cut
        cases hn : net k <;> simp [send]
      have hl : pushLoopUntil pd token name net (some k) k (r :: rest) p =
          (.error .unexpected, { p with srv := (send pd (net k) (putRequest token name r) p.srv).2 }) := by
        simp [pushLoopUntil]
      rw [hl, e]
      simp only [List.take_succ_cons, List.take_zero, pushLoop, pushOne, hs.1, hs.2, succeeded, Bool.false_eq_true, if_false, List.length_cons]
      refine ⟨trivial, trivial, trivial, ?_⟩
      rw [if_pos (by omega)]
    · have e : k + 1 - i = (k + 1 - (i + 1)) + 1 := by omega
      have hl : pushLoopUntil pd token name net (some k) i (r :: rest) p =
          pushLoopUntil pd token name net (some k) (i + 1) rest (pushOne pd token name (net i) r p) := by
        simp [pushLoopUntil, hk]
      have hc : cut net k i = net i := by
        unfold cut
        rw [if_neg (fun hh => hk hh.1.symm)]
      obtain ⟨i1, i2, i3, i4⟩ := ih (i + 1) (pushOne pd token name (net i) r p) (by omega)
      rw [hl, e, List.take_succ_cons]
      simp only [pushLoop, hc]
      refine ⟨i1, i2, i3, ?_⟩
      rw [i4, List.length_cons]
      congr 1
      exact propext (by omega)

theorem pushLoopUntil_none (pd : String → Option Int) (token name : String) (net : Nat → Net) : ∀ (l : List Rev) (i : Nat) (p : Push),
    pushLoopUntil pd token name net none i l p = (.ok (), pushLoop pd token name net i l p)
  | [], _, _ => rfl
  | r :: rest, i, p => by
    simp only [pushLoopUntil, reduceCtorEq, if_false, pushLoop]
    exact pushLoopUntil_none pd token name net rest (i + 1) _

/-- Without such a request a push is as described by C50. -/
theorem pushUntil_none (pd : String → Option Int) (peer token name : String) (net : Nat → Net) (s : Repo) (srv : Server) :
    pushUntil pd peer token name net none s srv = (.ok (), push pd peer token name net s srv) := by
  simp [pushUntil, pushLoopUntil_none, pushPurgeUntil, push]

theorem send_purge_repo (pd : String → Option Int) (token name : String) (net : Net) (srv : Server) (u : String) :
    remoteRev (send pd net ⟨some ("Bearer " ++ token), .purge name⟩ srv).2 name u = remoteRev srv name u := by
  have h := (pushPurge_repo pd token name net ⟨⟨[], [], []⟩, srv, true, false⟩ name u).2
  simpa [pushPurge] using h

theorem pushUntil_after (pd : String → Option Int) (peer token name : String) (net : Nat → Net) (k : Nat) (s : Repo) (srv : Server) (u : String) :
    (pushUntil pd peer token name net (some k) s srv).2.s =
      (pushLoopUntil pd token name net (some k) 0 (pendingFor peer s) ⟨s, srv, false, false⟩).2.s ∧
    remoteRev (pushUntil pd peer token name net (some k) s srv).2.srv name u =
      remoteRev (pushLoopUntil pd token name net (some k) 0 (pendingFor peer s) ⟨s, srv, false, false⟩).2.srv name u := by
  unfold pushUntil
  generalize pushLoopUntil pd token name net (some k) 0 (pendingFor peer s) ⟨s, srv, false, false⟩ = g
  obtain ⟨g1, g2⟩ := g
  cases g1 with
  | error e => exact ⟨rfl, rfl⟩
  | ok _ =>
    dsimp only
    unfold pushPurgeUntil
    split
    · exact ⟨rfl, send_purge_repo ..⟩
    · exact pushPurge_repo ..

/-- **C50** A push in which the answer to request number `k` does not come in time (so that the push is broken off): what was sent up to then
has its effect at the peer, what was confirmed has its effect here; all the other changes are pending as before, and unchanged at
the peer.  No other revision changes on either side. -/
theorem C50_interrupted (pd : String → Option Int) (peer token name : String) (net : Nat → Net) (k : Nat) (s : Repo) (srv : Server)
    (hs : Verif.Repo.Sync s) (hg : Good name srv) (hid : ∀ r ∈ pendingFor peer s, PlainId r.uuid) :
    (∀ i r, (pendingFor peer s)[i]? = some r →
      (i ≤ k → Delivered (net i) token name srv r → ∃ q, remoteRev srv name r.uuid = some q ∧ q.tags = r.origTags ∧
        remoteRev (pushUntil pd peer token name net (some k) s srv).2.srv name r.uuid =
          if r.tags = ∅ ∧ q.server = "" then none else some { q with tags := r.tags }) ∧
      (k < i ∨ ¬ Delivered (net i) token name srv r →
        remoteRev (pushUntil pd peer token name net (some k) s srv).2.srv name r.uuid = remoteRev srv name r.uuid) ∧
      (i < k → Confirmed (net i) token name srv r → onDisk (pushUntil pd peer token name net (some k) s srv).2.s.files r.uuid =
        if r.tags = ∅ then none else some { r with origTags := r.tags }) ∧
      (k ≤ i ∨ ¬ Confirmed (net i) token name srv r →
        onDisk (pushUntil pd peer token name net (some k) s srv).2.s.files r.uuid = some r ∧ r.pending = true)) ∧
    (∀ u, (∀ r ∈ s.history, r.uuid = u → r.clean = true → r.pending = true → r.server ≠ peer) →
      remoteRev (pushUntil pd peer token name net (some k) s srv).2.srv name u = remoteRev srv name u ∧
      onDisk (pushUntil pd peer token name net (some k) s srv).2.s.files u = onDisk s.files u) := by
  have hnodup : ((pendingFor peer s).map Rev.uuid).Nodup :=
    hs.nodup.sublist (List.Sublist.map _ (List.filter_sublist.trans List.filter_sublist))
  have hmem : ∀ r ∈ pendingFor peer s, r ∈ s.history ∧ r.clean = true ∧ r.pending = true ∧ r.server = peer := by
    intro r hr
    unfold pendingFor Repo.cleanHistory Repo.getHistory at hr
    simp only [List.mem_filter, Bool.and_eq_true, decide_eq_true_eq, Bool.not_true, Bool.false_or, Bool.not_false, Bool.true_or, and_true] at hr
    exact ⟨hr.1.1, hr.1.2, hr.2.1, hr.2.2⟩
  obtain ⟨q1, q2, _, _⟩ := pushLoopUntil_eq pd token name net k (pendingFor peer s) 0 ⟨s, srv, false, false⟩ (Nat.zero_le _)
  simp only [Nat.sub_zero] at q1 q2
  obtain ⟨_, _, c3, c4, _, _⟩ := pushLoop_spec pd token name (cut net k) ((pendingFor peer s).take (k + 1)) 0 ⟨s, srv, false, false⟩ hg
    (fun r hr => hid r (List.mem_of_mem_take hr)) (hnodup.sublist ((List.take_sublist _ _).map _))
  rw [(pushUntil_after pd peer token name net k s srv "").1, q1]
  simp only [(pushUntil_after pd peer token name net k s srv _).2, q2]
  refine ⟨?_, ?_⟩
  · intro i r hr
    have m := hmem r (List.mem_of_getElem? hr)
    by_cases hi : i ≤ k
    · have hr' : ((pendingFor peer s).take (k + 1))[i]? = some r := by
        rw [List.getElem?_take, if_pos (by omega)]; exact hr
      obtain ⟨d1, d2, d3, d4⟩ := c4 i r hr'
      rw [Nat.zero_add, cut_delivered] at d1 d2
      rw [Nat.zero_add, cut_confirmed] at d3 d4
      refine ⟨?_, ?_, ?_, ?_⟩
      · intro _ hd
        obtain ⟨b, q, hb, _, hq, ht⟩ := hd.2.2
        have hrq : remoteRev srv name r.uuid = some q := by unfold remoteRev; rw [hb]; exact hq
        refine ⟨q, hrq, ht, ?_⟩
        have := d1 hd
        simp only [hrq, Option.bind_some] at this
        rw [this]; rfl
      · rintro (h | h)
        · omega
        · exact d2 h
      · intro h1 hc
        exact d3 ⟨by omega, hc⟩
      · intro h
        refine ⟨(d4 ?_).trans ((hs.mem r).1 m.1), m.2.2.1⟩
        rintro ⟨h1, h2⟩
        rcases h with h | h
        · omega
        · exact h h2
    · have hno : ∀ x ∈ (pendingFor peer s).take (k + 1), x.uuid ≠ r.uuid := by
        intro x hx e
        obtain ⟨n, hn⟩ := List.mem_iff_getElem?.1 hx
        rw [List.getElem?_take] at hn
        split at hn
        · rename_i hlt
          have hinj : n = i := by
            refine (List.getElem?_inj (l := (pendingFor peer s).map Rev.uuid) ?_ hnodup).1 ?_
            · rw [List.length_map]
              exact (List.getElem?_eq_some_iff.1 hn).1
            · rw [List.getElem?_map, List.getElem?_map, hn, hr]; simp [e]
          omega
        · cases hn
      obtain ⟨e1, e2⟩ := c3 r.uuid hno
      refine ⟨fun h => absurd h hi, fun _ => e1, fun h => absurd (Nat.le_of_lt h) hi, fun _ => ⟨e2.trans ((hs.mem r).1 m.1), m.2.2.1⟩⟩
  · intro u hu
    exact c3 u (fun r hr hru => by
      obtain ⟨m1, m2, m3, m4⟩ := hmem r (List.mem_of_mem_take hr)
      exact hu r m1 hru m2 m3 m4)

/-- **C50** The push raises exactly if such a request was made. -/
theorem C50_raises (pd : String → Option Int) (peer token name : String) (net : Nat → Net) (k : Nat) (s : Repo) (srv : Server)
    (hs : Verif.Repo.Sync s) (hg : Good name srv) (hid : ∀ r ∈ pendingFor peer s, PlainId r.uuid) :
    (∃ e, (pushUntil pd peer token name net (some k) s srv).1 = .error e) ↔
      k < (pendingFor peer s).length ∨
      (k = (pendingFor peer s).length ∧ ∃ i r, (pendingFor peer s)[i]? = some r ∧ Confirmed (net i) token name srv r ∧ r.tags = ∅) := by
  have hnodup : ((pendingFor peer s).map Rev.uuid).Nodup :=
    hs.nodup.sublist (List.Sublist.map _ (List.filter_sublist.trans List.filter_sublist))
  obtain ⟨_, _, q3, q4⟩ := pushLoopUntil_eq pd token name net k (pendingFor peer s) 0 ⟨s, srv, false, false⟩ (Nat.zero_le _)
  simp only [Nat.sub_zero, Nat.zero_add] at q3 q4
  unfold pushUntil
  generalize pushLoopUntil pd token name net (some k) 0 (pendingFor peer s) ⟨s, srv, false, false⟩ = g at *
  obtain ⟨g1, g2⟩ := g
  simp only at q3 q4
  by_cases hk : k < (pendingFor peer s).length
  · rw [if_pos hk] at q4
    subst q4
    exact ⟨fun _ => .inl hk, fun _ => ⟨_, rfl⟩⟩
  · rw [if_neg hk] at q4
    subst q4
    have htake : (pendingFor peer s).take (k + 1) = pendingFor peer s := List.take_of_length_le (by omega)
    obtain ⟨_, _, _, _, _, c6⟩ := pushLoop_spec pd token name (cut net k) (pendingFor peer s) 0 ⟨s, srv, false, false⟩ hg hid hnodup
    rw [htake] at q3
    rw [← q3] at c6
    simp only [Nat.zero_add, Bool.false_eq_true, false_or, cut_confirmed] at c6
    simp only [pushPurgeUntil, Bool.and_eq_true, decide_eq_true_eq, Option.some.injEq, hk, false_or]
    split
    · rename_i hp
      refine ⟨fun _ => ⟨hp.1, ?_⟩, fun _ => ⟨_, rfl⟩⟩
      obtain ⟨i, r, h1, h2, h3⟩ := c6.1 hp.2
      exact ⟨i, r, h1, h2.2, h3⟩
    · rename_i hp
      refine ⟨fun h => ?_, fun h => ?_⟩
      · obtain ⟨e, he⟩ := h; cases he
      · obtain ⟨h1, i, r, h2, h3, h4⟩ := h
        exact absurd ⟨h1, c6.2 ⟨i, r, h2, ⟨by have := (List.getElem?_eq_some_iff.1 h2).1; omega, h3⟩, h4⟩⟩ hp

/-- Without such a request, the push to all peers is the one that C93 is about. -/
theorem pushCut_all (pd : String → Option Int) (job : String) : ∀ (cuts : List Callback.Cut) (s : Repo), (∀ c ∈ cuts, c.stop = none) →
    Callback.pushCut pd job cuts s = (false, Callback.pushAll pd job (cuts.map Callback.Cut.peer) s)
  | [], _, _ => rfl
  | c :: rest, s, h => by
    have hc := h c (by simp)
    simp only [Callback.pushCut, hc, pushUntil_none]
    exact pushCut_all pd job rest _ (fun c' hc' => h c' (by simp [hc']))

/-- **C112** A push to several peers raises exactly if it raises for one of them (in the state the pushes to the peers before it have left;
for one peer see `C50_raises`); nothing that happens with other peers conceals it. -/
theorem C112_push_raises (pd : String → Option Int) (job : String) : ∀ (cuts : List Callback.Cut) (s : Repo),
    (Callback.pushCut pd job cuts s).1 = true ↔ ∃ pre c rest, cuts = pre ++ c :: rest ∧
      ∃ e, (pushUntil pd c.peer.name c.peer.token job c.peer.net c.stop (Callback.pushCut pd job pre s).2 c.peer.srv).1 = .error e
  | [], s => by simp [Callback.pushCut]
  | c :: rest, s => by
    have ih := C112_push_raises pd job rest (pushUntil pd c.peer.name c.peer.token job c.peer.net c.stop s c.peer.srv).2.s
    constructor
    · intro h
      cases hg : (pushUntil pd c.peer.name c.peer.token job c.peer.net c.stop s c.peer.srv).1 with
      | error e => exact ⟨[], c, rest, rfl, e, hg⟩
      | ok u =>
        have e : Callback.pushCut pd job (c :: rest) s =
            Callback.pushCut pd job rest (pushUntil pd c.peer.name c.peer.token job c.peer.net c.stop s c.peer.srv).2.s := by
          simp only [Callback.pushCut]
          generalize pushUntil pd c.peer.name c.peer.token job c.peer.net c.stop s c.peer.srv = g at *
          obtain ⟨g1, g2⟩ := g
          dsimp only at hg
          subst hg
          rfl
        rw [e] at h
        obtain ⟨pre, c', rest', h1, err, h2⟩ := ih.1 h
        refine ⟨c :: pre, c', rest', by rw [h1]; rfl, err, ?_⟩
        rw [← h2]
        congr 2
        simp only [Callback.pushCut]
        generalize pushUntil pd c.peer.name c.peer.token job c.peer.net c.stop s c.peer.srv = g at *
        obtain ⟨g1, g2⟩ := g
        dsimp only at hg
        subst hg
        rfl
    · rintro ⟨pre, c', rest', h1, err, h2⟩
      simp only [Callback.pushCut]
      cases pre with
      | nil =>
        simp only [List.nil_append, List.cons.injEq] at h1
        obtain ⟨h1, _⟩ := h1
        subst h1
        simp only [Callback.pushCut] at h2
        generalize pushUntil pd c.peer.name c.peer.token job c.peer.net c.stop s c.peer.srv = g at *
        obtain ⟨g1, g2⟩ := g
        dsimp only at h2
        subst h2
        rfl
      | cons a pre =>
        simp only [List.cons_append, List.cons.injEq] at h1
        obtain ⟨h1, h3⟩ := h1
        subst h1
        simp only [Callback.pushCut] at h2
        generalize pushUntil pd c.peer.name c.peer.token job c.peer.net c.stop s c.peer.srv = g at *
        obtain ⟨g1, g2⟩ := g
        cases g1 with
        | error e => rfl
        | ok u => exact ih.2 ⟨pre, c', rest', h3, err, h2⟩

/-! ### The case of `Props/Push.lean`, with the second answer (or the one to the final request) not in time -/

example : (pushUntil (fun _ => none) "peer" "secret" "vm" (fun _ => .ok) (some 1) exLocal.scan exOrigin).1 = .error .unexpected ∧
    (pushUntil (fun _ => none) "peer" "secret" "vm" (fun _ => .ok) (some 1) exLocal.scan exOrigin).2.s.files.keys = ["aX", "bX", "cX", "dX", "eX"] ∧
    remoteRev (pushUntil (fun _ => none) "peer" "secret" "vm" (fun _ => .ok) (some 1) exLocal.scan exOrigin).2.srv "vm" "bX" = none ∧
    remoteRev (pushUntil (fun _ => none) "peer" "secret" "vm" (fun _ => .ok) (some 1) exLocal.scan exOrigin).2.srv "vm" "dX" =
      some (exRev "dX" {"daily"} ∅ "") ∧
    (pushUntil (fun _ => none) "peer" "secret" "vm" (fun _ => .ok) (some 4) exLocal.scan exOrigin).1 = .error .unexpected ∧
    (pushUntil (fun _ => none) "peer" "secret" "vm" (fun _ => .ok) (some 5) exLocal.scan exOrigin).1 = .ok () := by
  decide +kernel

theorem exOrigin_good : Good "vm" exOrigin ∧ ∀ r ∈ pendingFor "peer" exLocal.scan, PlainId r.uuid := by
  refine ⟨⟨fun n _ => rfl, ?_⟩, ?_⟩
  · intro b hb
    have : exOrigin.dead.get? "vm" = some ⟨exRepo [exRev "aX" {"daily"} ∅ "", exRev "bX" {"daily"} ∅ "", exRev "cX" {"weekly"} ∅ "", exRev "dX" {"daily"} ∅ ""],
        false, false, 0, false⟩ := rfl
    rw [hb] at this
    cases this
    exact exRepo_named (by decide +kernel)
  · intro r hr
    have : r.uuid ∈ (pendingFor "peer" exLocal.scan).map Rev.uuid := List.mem_map_of_mem hr
    have e : (pendingFor "peer" exLocal.scan).map Rev.uuid = ["aX", "bX", "cX", "dX"] := by decide +kernel
    rw [e] at this
    simp only [List.mem_cons, List.not_mem_nil, or_false] at this
    rcases this with h | h | h | h <;> rw [h] <;> exact ⟨by decide, by decide, by decide, by decide⟩

example := C50_interrupted (fun _ => none) "peer" "secret" "vm" (fun _ => .ok) 1 exLocal.scan exOrigin
  (.scan (exRepo_named (by decide +kernel))) exOrigin_good.1 exOrigin_good.2
example := (C50_raises (fun _ => none) "peer" "secret" "vm" (fun _ => .ok) 1 exLocal.scan exOrigin
  (.scan (exRepo_named (by decide +kernel))) exOrigin_good.1 exOrigin_good.2).2 (.inl (by decide +kernel))

example : (Callback.pushCut (fun _ => none) "vm" [⟨⟨"other", "t", fun _ => .ok, exOrigin⟩, none⟩, ⟨⟨"peer", "secret", fun _ => .ok, exOrigin⟩, some 1⟩,
    ⟨⟨"third", "t", fun _ => .ok, exOrigin⟩, none⟩] exLocal.scan).1 = true :=
  (C112_push_raises (fun _ => none) "vm" _ exLocal.scan).2 ⟨[⟨⟨"other", "t", fun _ => .ok, exOrigin⟩, none⟩], _, _, rfl, .unexpected,
    by decide +kernel⟩

end Verif.Sync
