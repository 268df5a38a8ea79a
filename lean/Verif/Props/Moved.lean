import Verif.Model.Moved
import Verif.Spec.Moved
import Verif.Props.Callback
import Verif.Props.Lasting
/-!
# C103: revisions on other servers expire too
-/
namespace Verif.Moved
open Verif Verif.Repo Verif.Api Verif.Sync Verif.Callback Verif.Repo.Spec

/-! ## Asking a peer -/

theorem handle_auth (pd : String → Option Int) {job : String} {p : Peer} (h : Reachable job p) (srv' : Server)
    (he : srv'.tokens = p.srv.tokens) (route : Route) :
    handle pd srv' ⟨some ("Bearer " ++ p.token), route⟩ = dispatch pd srv' route := by
  obtain ⟨client, ht, hc⟩ := h.token
  unfold handle
  have : authenticate srv'.tokens ⟨some ("Bearer " ++ p.token), route⟩ ≠ none := by
    rw [authenticate_iff]
    exact ⟨p.token, client, rfl, by rw [he]; exact ht, hc⟩
  cases hx : authenticate srv'.tokens ⟨some ("Bearer " ++ p.token), route⟩ with
  | none => exact absurd hx this
  | some c => rfl

/-- A peer that has the repository. -/
theorem asked_some (pd : String → Option Int) {job : String} {p : Peer} (h : Reachable job p) {k : Api.Kind} {b : Backup}
    (hg : getBackup p.srv job true = .ok (k, b)) :
    asked pd job p = (p.srv.put k job { b with touched := b.touched + 1 }).put k job
      { b with touched := b.touched + 1, repo := b.repo.scan } := by
  have h1 : handle pd p.srv ⟨some ("Bearer " ++ p.token), .touch job⟩ =
      (⟨204, []⟩, p.srv.put k job { b with touched := b.touched + 1 }) := by
    rw [handle_auth pd h p.srv rfl]
    simp only [dispatch, touchBackup, hg]
  have htok : (p.srv.put k job { b with touched := b.touched + 1 }).tokens = p.srv.tokens := by cases k <;> rfl
  have hg2 : getBackup (p.srv.put k job { b with touched := b.touched + 1 }) job true =
      .ok (k, { b with touched := b.touched + 1 }) := by
    rcases getBackup_ok hg with ⟨rfl, h⟩ | ⟨rfl, h, hd, _⟩
    · simp [getBackup, Server.put]
    · simp [getBackup, Server.put, hd]
  have h2 := handle_auth pd h (p.srv.put k job { b with touched := b.touched + 1 }) htok (.revs job true)
  simp only [dispatch, getRevs, hg2] at h2
  unfold asked fetch
  rw [h1]
  dsimp only
  rw [h2]
  simp

/-- A peer that does not have it. -/
theorem fetch_none (pd : String → Option Int) {job : String} {p : Peer} (h : Reachable job p) (hd : p.srv.dead.get? job = none)
    (hj : p.srv.jobs.get? job = none) : fetch pd p.name p.token job p.srv = (.status 404, p.srv) := by
  have h1 : handle pd p.srv ⟨some ("Bearer " ++ p.token), .touch job⟩ = (⟨404, []⟩, p.srv) := by
    rw [handle_auth pd h p.srv rfl]
    simp [dispatch, touchBackup, getBackup, hd, hj]
  unfold fetch
  rw [h1]
  simp

theorem stored_eq {job : String} {srv : Server} {b : Backup}
    (hb : srv.dead.get? job = some b ∨ (srv.dead.get? job = none ∧ srv.jobs.get? job = some b)) (u : String) :
    stored job srv u = onDisk b.repo.files u := by
  unfold stored
  rcases hb with h | ⟨h1, h2⟩
  · rw [h]
  · rw [h1, h2]; rfl

theorem fetch_ok (pd : String → Option Int) (job : String) (p : Peer) (h : Reachable job p) :
    ∃ L, Reports (fetch pd p.name p.token job p.srv).1 L ∧ (L.map Rev.uuid).Nodup ∧
      (∀ L', Reports (fetch pd p.name p.token job p.srv).1 L' → L' = L) ∧
      ∀ r, r ∈ L ↔ ∃ q, OwnRev job p.srv q ∧ r = { q with origTags := q.tags, server := p.name } := by
  obtain ⟨client, ht, hc⟩ := h.token
  have key : ∀ b, (p.srv.dead.get? job = some b ∨ (p.srv.dead.get? job = none ∧ p.srv.jobs.get? job = some b)) → Named b.repo.files →
      ∃ L, Reports (fetch pd p.name p.token job p.srv).1 L ∧ (L.map Rev.uuid).Nodup ∧
      (∀ L', Reports (fetch pd p.name p.token job p.srv).1 L' → L' = L) ∧
      ∀ r, r ∈ L ↔ ∃ q, OwnRev job p.srv q ∧ r = { q with origTags := q.tags, server := p.name } := by
    intro b hb hn
    obtain ⟨L, h1, h2, h3⟩ := fetch_revs pd p.name p.token job p.srv b client ht hc hb hn
    refine ⟨L, .inl h1, h2, fun L' h' => ?_, fun r => ?_⟩
    · rw [h1] at h'
      rcases h' with h' | ⟨h' | h', _⟩
      · cases h'; rfl
      · cases h'
      · cases h'
    · rw [h3]
      constructor
      · rintro ⟨q, k1, k2, k3, k4⟩; exact ⟨q, ⟨(stored_eq hb _).trans k1, k2, k3⟩, k4⟩
      · rintro ⟨q, ⟨k1, k2, k3⟩, k4⟩; exact ⟨q, (stored_eq hb _).symm.trans k1, k2, k3, k4⟩
  cases hd : p.srv.dead.get? job with
  | some b => exact key b (.inl hd) (h.dead b hd)
  | none =>
    cases hj : p.srv.jobs.get? job with
    | some b => exact key b (.inr ⟨hd, hj⟩) (h.active b hj)
    | none =>
      rw [fetch_none pd h hd hj]
      refine ⟨[], .inr ⟨.inl rfl, rfl⟩, List.nodup_nil, fun L' h' => ?_, fun r => ?_⟩
      · rcases h' with h' | ⟨_, h'⟩
        · cases h'
        · exact h'
      · constructor
        · intro h; cases h
        · rintro ⟨q, ⟨k1, _⟩, _⟩
          unfold stored at k1
          rw [hd, hj] at k1; cases k1

theorem getBackup_dead {srv : Server} {job : String} {b : Backup} (h : srv.dead.get? job = some b) :
    getBackup srv job true = .ok (.dead, b) := by simp [getBackup, h]

theorem getBackup_active {srv : Server} {job : String} {b : Backup} (hd : srv.dead.get? job = none) (h : srv.jobs.get? job = some b) :
    getBackup srv job true = .ok (.active, b) := by simp [getBackup, h, hd]

theorem asked_dead (pd : String → Option Int) {job : String} {p : Peer} (h : Reachable job p) {b : Backup}
    (hb : p.srv.dead.get? job = some b) :
    (asked pd job p).dead.get? job = some { b with touched := b.touched + 1, repo := b.repo.scan } ∧
      (asked pd job p).tokens = p.srv.tokens ∧ (asked pd job p).jobs = p.srv.jobs ∧
      ∀ n, n ≠ job → (asked pd job p).dead.get? n = p.srv.dead.get? n := by
  rw [asked_some pd h (getBackup_dead hb)]
  refine ⟨Dict.get?_set_self _ _ _, rfl, rfl, fun n hn => ?_⟩
  show ((p.srv.dead.set job _).set job _).get? n = _
  rw [Dict.get?_set_ne _ _ hn, Dict.get?_set_ne _ _ hn]

theorem asked_good (pd : String → Option Int) {job : String} {p : Peer} (h : Reachable job p) : Good job (asked pd job p) := by
  cases hd : p.srv.dead.get? job with
  | some b =>
    obtain ⟨h1, h2, h3, h4⟩ := asked_dead pd h hd
    refine ⟨fun n hn => ?_, fun b' hb' => ?_⟩
    · rw [h3]
      by_cases he : n = job
      · subst he; exact h.separate n (by rw [hd]; exact fun h => by cases h)
      · rw [h4 n he] at hn; exact h.separate n hn
    · rw [h1] at hb'; cases hb'; exact h.dead b hd
  | none =>
    cases hj : p.srv.jobs.get? job with
    | some b =>
      rw [asked_some pd h (getBackup_active hd hj)]
      refine ⟨fun n hn => ?_, fun b' hb' => ?_⟩
      · have hn : p.srv.dead.get? n ≠ none := hn
        have hne : n ≠ job := by rintro rfl; exact hn hd
        show ((p.srv.jobs.set job _).set job _).get? n = none
        rw [Dict.get?_set_ne _ _ hne, Dict.get?_set_ne _ _ hne]
        exact h.separate n hn
      · have hb' : p.srv.dead.get? job = some b' := hb'
        rw [hd] at hb'; cases hb'
    | none =>
      unfold asked
      rw [fetch_none pd h hd hj]
      exact ⟨h.separate, h.dead⟩

/-! ## Pushing to several peers -/

theorem push_same (pd : String → Option Int) (peer token name : String) (net : Nat → Net) (s : Repo) (srv : Server)
    (hs : Verif.Repo.Sync s) (hg : Good name srv) (hid : ∀ r ∈ pendingFor peer s, PlainId r.uuid) (u : String)
    (hr : ∀ x, onDisk s.files u = some x → x.server ≠ peer) :
    onDisk (push pd peer token name net s srv).s.files u = onDisk s.files u := by
  obtain ⟨_, h2⟩ := C50_push pd peer token name net s srv hs hg hid
  exact (h2 u (fun x hm hu _ _ => hr x (hu ▸ (hs.mem x).1 hm))).2

/-- A push leaves the revisions of the peer with the peer. -/
theorem push_server (pd : String → Option Int) (peer token name : String) (net : Nat → Net) (s : Repo) (srv : Server)
    (hs : Verif.Repo.Sync s) (hg : Good name srv) (hid : ∀ r ∈ pendingFor peer s, PlainId r.uuid) (u : String)
    (r : Rev) (hr : onDisk s.files u = some r) (x : Rev) (hx : onDisk (push pd peer token name net s srv).s.files u = some x) :
    x.server = r.server := by
  obtain ⟨h1, h2⟩ := C50_push pd peer token name net s srv hs hg hid
  by_cases he : ∃ y ∈ pendingFor peer s, y.uuid = u
  · obtain ⟨y, hy, rfl⟩ := he
    obtain ⟨i, hi⟩ := List.getElem?_of_mem hy
    obtain ⟨_, _, h3, h4⟩ := h1 i y hi
    obtain ⟨hm, _, hsv, _⟩ := (C50_what_is_pushed peer s y).1 hy
    have hd := (hs.mem y).1 hm
    obtain rfl : r = y := (Option.some.inj (hd.symm.trans hr)).symm
    by_cases hc : Confirmed (net i) token name srv r
    · rw [h3 hc] at hx
      split at hx
      · cases hx
      · cases hx; rfl
    · rw [(h4 hc).1] at hx; cases hx; rfl
  · have hno : ∀ y ∈ s.history, y.uuid = u → y.clean = true → y.pending = true → y.server ≠ peer := by
      intro y hm hu hc hp hsv
      refine he ⟨y, ?_, hu⟩
      unfold pendingFor Repo.cleanHistory Repo.getHistory
      simp only [List.mem_filter]
      exact ⟨⟨hm, by simp [hc]⟩, by simp [hp, hsv]⟩
    rw [(h2 u hno).2, hr] at hx
    cases hx; rfl

theorem pending_plain {s : Repo} (hs : Verif.Repo.Sync s) {peer : String}
    (h : ∀ u r, onDisk s.files u = some r → r.server = peer → PlainId u) : ∀ r ∈ pendingFor peer s, PlainId r.uuid := by
  intro r hr
  obtain ⟨h1, _, h3, _, _⟩ := (C50_what_is_pushed _ _ _).1 hr
  exact h _ r ((hs.mem r).1 h1) h3

theorem pushEach_spec (pd : String → Option Int) (job : String) : ∀ (peers : List Peer) (s : Repo), Verif.Repo.Sync s →
    (peers.map Peer.name).Nodup → (∀ p ∈ peers, Reachable job p) →
    (∀ p ∈ peers, ∀ u r, onDisk s.files u = some r → r.server = p.name → PlainId u) →
    (∀ u, (∀ x, onDisk s.files u = some x → x.server ∉ peers.map Peer.name) →
      onDisk (pushEach pd job peers s).1.files u = onDisk s.files u) ∧
    (pushEach pd job peers s).2.length = peers.length ∧
    ∀ (j : Nat) (p : Peer), peers[j]? = some p → ∃ (srv' : Server) (sj : Repo), (pushEach pd job peers s).2[j]? = some srv' ∧ Verif.Repo.Sync sj ∧
      (∀ u r, r.server = p.name → (onDisk sj.files u = some r ↔ onDisk s.files u = some r)) ∧
      srv' = (push pd p.name p.token job p.net sj (asked pd job p)).srv ∧
      ∀ u r, r.server = p.name → onDisk s.files u = some r → onDisk (pushEach pd job peers s).1.files u =
        onDisk (push pd p.name p.token job p.net sj (asked pd job p)).s.files u
  | [], s, _, _, _, _ => ⟨fun _ _ => rfl, rfl, fun j p h => by cases h⟩
  | p :: rest, s, hs, hn, hp, hid => by
    rw [List.map_cons, List.nodup_cons] at hn
    have hpend := pending_plain hs (hid p (by simp))
    have hg := asked_good pd (hp p (by simp))
    have hsame := push_same pd p.name p.token job p.net s (asked pd job p) hs hg hpend
    have hserver := push_server pd p.name p.token job p.net s (asked pd job p) hs hg hpend
    have hs' := sync_push pd p.name p.token job p.net s (asked pd job p) hs
    -- the revisions of other peers are not concerned
    have hother : ∀ u r, r.server ≠ p.name →
        (onDisk (push pd p.name p.token job p.net s (asked pd job p)).s.files u = some r ↔ onDisk s.files u = some r) := by
      intro u r hr
      by_cases hx : ∃ x, onDisk s.files u = some x ∧ x.server = p.name
      · obtain ⟨x, hx, hxs⟩ := hx
        constructor
        · intro h; exact absurd ((hserver u x hx r h).trans hxs) hr
        · intro h; rw [hx] at h; cases h; exact absurd hxs hr
      · rw [hsame u (fun x hx' hxs => hx ⟨x, hx', hxs⟩)]
    have hne : ∀ q ∈ rest, q.name ≠ p.name := fun q hq he => hn.1 (he ▸ List.mem_map.2 ⟨q, hq, rfl⟩)
    obtain ⟨h1, h0, h2⟩ := pushEach_spec pd job rest _ hs' hn.2 (fun q hq => hp q (by simp [hq])) (by
      intro q hq u r hd hr
      exact hid q (by simp [hq]) u r ((hother _ r (by rw [hr]; exact hne q hq)).1 hd) hr)
    refine ⟨fun u hr => ?_, by simp [pushEach, h0], fun j q hj => ?_⟩
    · have e := hsame u (fun x hx hxs => hr x hx (by simp [hxs]))
      show onDisk (pushEach pd job rest _).1.files u = _
      rw [h1 u (fun x hx => ?_), e]
      rw [e] at hx
      have := hr x hx
      rw [List.map_cons, List.mem_cons, not_or] at this
      exact this.2
    · cases j with
      | zero =>
        rw [List.getElem?_cons_zero] at hj
        cases hj
        refine ⟨_, s, rfl, hs, fun _ _ _ => Iff.rfl, rfl, fun u r hr hd => h1 u (fun x hx => ?_)⟩
        rw [hserver u r hd x hx, hr]; exact hn.1
      | succ j =>
        rw [List.getElem?_cons_succ] at hj
        have hq := List.mem_of_getElem? hj
        obtain ⟨srv', sj, k1, k2, k3, k4, k5⟩ := h2 j q hj
        refine ⟨srv', sj, k1, k2, fun u r hr => (k3 u r hr).trans (hother u r (by rw [hr]; exact hne q hq)), k4, fun u r hr hd => ?_⟩
        exact k5 u r hr ((hother u r (by rw [hr]; exact hne q hq)).2 hd)

/-! ## Expiry -/

theorem expire_fst (sch : Schedule) (hs : GoodSchedule sch) (pd : String → Option Int) (now : String → Int) (s : Repo) (hn : Named s.files) :
    ∃ l, (sch.expire pd now s).1 = .ok l := by
  obtain ⟨l, h, _⟩ := (C27_expiry_exact sch hs now pd (Verif.Backup.nolog s) hn rfl).2.1
  have h2 := (Verif.Backup.nolog_phase1 pd now sch (show Verif.Backup.nolog s.scan = Verif.Backup.nolog (Verif.Backup.nolog s).scan from rfl)).1
  unfold Schedule.expire at h ⊢
  generalize expirePhase1 pd now sch s.scan = x at *
  generalize expirePhase1 pd now sch (Verif.Backup.nolog s).scan = y at *
  obtain ⟨x1, x2⟩ := x
  obtain ⟨y1, y2⟩ := y
  cases x1 <;> cases y1
  · simp at h
  · cases h2
  · simp at h
  · exact ⟨_, rfl⟩

/-! ## C103 -/

theorem exchange_spec (same : Rev → Rev → Bool) (hsame : SameSound same) (sch : Schedule) (hs : GoodSchedule sch) (pd : String → Option Int)
    (now : String → Int) (job : String) (peers : List Peer) (s : Repo) (hn : Named s.files) (hr : ∀ p ∈ peers, Reachable job p)
    (hu : Unique job peers s) :
    ∃ (H : List Rev) (s2 : Repo), Everything job peers s H ∧ exchange same sch pd now job peers s = some (pushEach pd job peers s2) ∧
      Verif.Repo.Sync s2 ∧
      ∀ u r', onDisk s2.files u = some r' ↔ ∃ r ∈ H, r.uuid = u ∧ r' = { r with tags := keptTags sch now H r } ∧
        ¬ (keptTags sch now H r = ∅ ∧ r.server = "") := by
  obtain ⟨c1, c2⟩ := clean_complete (Verif.Repo.Sync.scan hn)
  have hcd : ∀ u x, onDisk s.scan.clean.files u = some x → onDisk s.files u = some x ∧ (x.server = "" → x.clean = true) := by
    intro u x hx
    have hxu := Sync.Named.uuid c1.named hx
    subst hxu
    obtain ⟨h1, h2⟩ := (c2 x).1 ((c1.mem x).2 hx)
    exact ⟨(Repo.scan_mem hn x).1 h1, fun h => h2 (by simp [Rev.isLocal, h])⟩
  have hmem : ∀ p a, (p, a) ∈ answers pd job peers → ∃ q ∈ peers, q.name = p ∧ (fetch pd q.name q.token job q.srv).1 = a := by
    intro p a h
    obtain ⟨q, hq, he⟩ := List.mem_map.1 h
    cases he
    exact ⟨q, hq, rfl, rfl⟩
  have hL : ∀ q ∈ peers, ∀ L, (fetch pd q.name q.token job q.srv).1 = .revs L → (L.map Rev.uuid).Nodup ∧
      ∀ r, r ∈ L ↔ ∃ x, OwnRev job q.srv x ∧ r = { x with origTags := x.tags, server := q.name } := by
    intro q hq L hL
    obtain ⟨L', _, h2, h3, h4⟩ := fetch_ok pd job q (hr q hq)
    have := h3 L (.inl hL)
    subst this
    exact ⟨h2, h4⟩
  have hids : UniqueIds (answers pd job peers) s.scan.clean := by
    refine ⟨?_, ?_, ?_, ?_, ?_⟩
    · rw [show (answers pd job peers).map Prod.fst = peers.map Peer.name by simp [answers, Function.comp_def]]
      exact hu.distinct
    · rw [show (answers pd job peers).map Prod.fst = peers.map Peer.name by simp [answers, Function.comp_def]]
      exact hu.named
    · intro p L hm
      obtain ⟨q, hq, rfl, he⟩ := hmem p _ hm
      obtain ⟨h1, h2⟩ := hL q hq L he
      refine ⟨h1, fun r hr => ?_⟩
      obtain ⟨x, _, rfl⟩ := (h2 r).1 hr
      rfl
    · intro p L hm r hr x hx
      obtain ⟨q, hq, rfl, he⟩ := hmem p _ hm
      obtain ⟨y, hy, rfl⟩ := ((hL q hq L he).2 r).1 hr
      exact hu.here q hq y hy x (hcd _ x hx).1
    · intro p L p' L' hm hm' r hr r' hr' he
      obtain ⟨q, hq, rfl, e1⟩ := hmem p _ hm
      obtain ⟨q', hq', rfl, e2⟩ := hmem p' _ hm'
      obtain ⟨y, hy, rfl⟩ := ((hL q hq L e1).2 r).1 hr
      obtain ⟨y', hy', rfl⟩ := ((hL q' hq' L' e2).2 r').1 hr'
      exact hu.across q hq q' hq' y y' hy hy' he
  have hrep : ∀ p a, (p, a) ∈ answers pd job peers → ∃ L, Reports a L := by
    intro p a hm
    obtain ⟨q, hq, rfl, rfl⟩ := hmem p a hm
    obtain ⟨L, h, _⟩ := fetch_ok pd job q (hr q hq)
    exact ⟨L, h⟩
  obtain ⟨p1, p2, p3⟩ := pull_spec hsame (answers pd job peers) s.scan.clean c1 hids hrep
  generalize hg : pull same (answers pd job peers) s.scan.clean = g at *
  obtain ⟨g1, s1⟩ := g
  dsimp only at p1 p2 p3
  subst p1
  obtain ⟨l, hl⟩ := expire_fst sch hs pd now s1 p2
  have hsync := sync_expire sch pd now s1 p2
  have hex := (C27_expiry_exact sch hs now pd (Verif.Backup.nolog s1) p2 rfl).1
  rw [← Verif.Backup.nolog_expire] at hex
  refine ⟨s1.scan.history, (sch.expire pd now s1).2, ⟨fun r => ?_, s1.scan_sorted, s1.scan_nodup⟩, ?_, hsync, fun u r' => ?_⟩
  · rw [Repo.scan_mem p2, p3]
    constructor
    · rintro (⟨a, L, h1, h2, h3⟩ | ⟨h1, h2⟩)
      · obtain ⟨q, hq, hqn, rfl⟩ := hmem _ a h1
        obtain ⟨L', _, _, k3, k4⟩ := fetch_ok pd job q (hr q hq)
        rw [k3 L h2] at h3
        obtain ⟨x, hx, hxe⟩ := (k4 r).1 h3
        exact .inr ⟨q, hq, x, hx, hxe⟩
      · obtain ⟨h3, h4⟩ := hcd _ r h2
        exact .inl ⟨h1, h4 h1, h3⟩
    · rintro (⟨h1, h2, h3⟩ | ⟨q, hq, x, hx, rfl⟩)
      · refine .inr ⟨h1, (c1.mem r).1 ((c2 r).2 ⟨(Repo.scan_mem hn r).2 h3, fun _ => h2⟩)⟩
      · obtain ⟨L', k1, _, _, k4⟩ := fetch_ok pd job q (hr q hq)
        exact .inl ⟨_, L', List.mem_map.2 ⟨q, hq, rfl⟩, k1, (k4 _).2 ⟨x, hx, rfl⟩⟩
  · unfold exchange
    rw [hg]
    dsimp only
    generalize sch.expire pd now s1 = y at *
    obtain ⟨y1, y2⟩ := y
    dsimp only at hl
    subst hl
    rfl
  · rw [hex]
    constructor
    · rintro ⟨r, h1, h2, h3⟩
      have hru : r.uuid = u := Sync.Named.uuid p2 h1
      exact ⟨r, (Repo.scan_mem p2 r).2 (by rw [hru]; exact h1), hru, h2, h3⟩
    · rintro ⟨r, h1, rfl, h2, h3⟩
      exact ⟨r, (Repo.scan_mem p2 r).1 h1, h2, h3⟩

/-- The copy of a peer's revision. -/
def mirror (p : Peer) (q : Rev) : Rev := { q with origTags := q.tags, server := p.name }

/-- **C103** A run of a job applies the schedule to the complete revisions made here and on all peers together (`H`).  Here, each loses
the tags the schedule no longer keeps and is removed if none is left.  On a peer that still has the repository, a complete
revision is afterwards either as it was or the same has been done to it, and it has been done if the peer's repository is not in use
and no request is lost; then the copy here agrees and, if the revision was removed, the peer has been asked to remove its data. All other revisions
there are untouched. -/
theorem C103_other_servers (same : Rev → Rev → Bool) (hsame : SameSound same) (sch : Schedule) (hs : GoodSchedule sch)
    (pd : String → Option Int) (now : String → Int) (job : String) (peers : List Peer) (s : Repo) (hn : Named s.files)
    (hr : ∀ p ∈ peers, Reachable job p) (hu : Unique job peers s) :
    ∃ (H : List Rev) (s' : Repo) (after : List Server), Everything job peers s H ∧
      exchange same sch pd now job peers s = some (s', after) ∧ after.length = peers.length ∧
      (∀ r, r.server = "" → r.stats.has "duration" = true → onDisk s.files r.uuid = some r →
        onDisk s'.files r.uuid = if keptTags sch now H r = ∅ then none else some { r with tags := keptTags sch now H r }) ∧
      ∀ (j : Nat) (p : Peer) (srv' : Server) (b : Api.Backup), peers[j]? = some p → after[j]? = some srv' →
        p.srv.dead.get? job = some b → ∀ q, onDisk b.repo.files q.uuid = some q →
          -- complete revisions made there: unchanged or expired, and expired for sure if nothing goes wrong
          (q.server = "" → q.stats.has "duration" = true →
            (remoteRev srv' job q.uuid = some q ∨ remoteRev srv' job q.uuid = expired sch now H p q) ∧
            (b.locked = false → (∀ i, p.net i = .ok) → remoteRev srv' job q.uuid = expired sch now H p q ∧
              onDisk s'.files q.uuid = (expired sch now H p q).map (mirror p) ∧
              (expired sch now H p q = none → ∃ b', srv'.dead.get? job = some b' ∧ b'.purge = true))) ∧
          -- all others are left alone
          (¬ (q.server = "" ∧ q.stats.has "duration" = true) → remoteRev srv' job q.uuid = some q) := by
  obtain ⟨H, s2, hH, hex, hsync, h2⟩ := exchange_spec same hsame sch hs pd now job peers s hn hr hu
  have hplain : ∀ p ∈ peers, ∀ u r, onDisk s2.files u = some r → r.server = p.name → PlainId u := by
    intro p hp u r hd hsv
    obtain ⟨r0, k1, k2, k3, _⟩ := (h2 u r).1 hd
    rcases (hH.mem r0).1 k1 with ⟨m1, _, _⟩ | ⟨p', hp', q, hq, rfl⟩
    · rw [k3] at hsv
      have : p.name = "" := hsv.symm.trans m1
      exact absurd (List.mem_map.2 ⟨p, hp, this⟩) hu.named
    · rw [← k2]; exact hu.plain p' hp' q hq
  obtain ⟨hmine, hlen, heach⟩ := pushEach_spec pd job peers s2 hsync hu.distinct hr hplain
  refine ⟨H, (pushEach pd job peers s2).1, (pushEach pd job peers s2).2, hH, hex, hlen, ?_, ?_⟩
  · intro r r1 r2 r3
    have hrH : r ∈ H := (hH.mem r).2 (.inl ⟨r1, r2, r3⟩)
    -- ids occur once in what is expired
    have huniq : ∀ r0 ∈ H, r0.uuid = r.uuid → r0 = r := fun r0 h0 h1 => eq_of_uuid hH.nodup h0 hrH h1
    have hval : onDisk s2.files r.uuid = if keptTags sch now H r = ∅ then none else some { r with tags := keptTags sch now H r } := by
      split
      · rename_i hk
        cases hx : onDisk s2.files r.uuid with
        | none => rfl
        | some x =>
          obtain ⟨r0, k1, k2, _, k4⟩ := (h2 _ _).1 hx
          rw [huniq r0 k1 k2] at k4
          exact absurd ⟨hk, r1⟩ k4
      · rename_i hk
        exact (h2 _ _).2 ⟨r, hrH, rfl, rfl, fun h => hk h.1⟩
    rw [hmine r.uuid (fun x hx => ?_), hval]
    obtain ⟨r0, k1, k2, k3, _⟩ := (h2 _ _).1 hx
    rw [huniq r0 k1 k2] at k3
    rw [k3]
    show r.server ∉ _
    rw [r1]; exact hu.named
  intro j p srv' b hj hsrv hb q hq
  have hp := List.mem_of_getElem? hj
  have hpn : p.name ≠ "" := fun h => hu.named (List.mem_map.2 ⟨p, hp, h⟩)
  obtain ⟨srv'', sj, e1, e2, e3, e4, e5⟩ := heach j p hj
  rw [hsrv] at e1
  cases e1
  have hgood := asked_good pd (hr p hp)
  have hpend : ∀ r ∈ pendingFor p.name sj, PlainId r.uuid :=
    pending_plain e2 (fun u r hd hsv => hplain p hp u r ((e3 u r hsv).1 hd) hsv)
  obtain ⟨a1, a2, a3, a4⟩ := asked_dead pd (hr p hp) hb
  have hrem : ∀ u, remoteRev (asked pd job p) job u = onDisk b.repo.files u := by
    intro u
    unfold remoteRev
    rw [a1]; rfl
  obtain ⟨t1, t2⟩ := C50_push pd p.name p.token job p.net sj (asked pd job p) e2 hgood hpend
  rw [← e4] at t1 t2
  -- the copies of this peer's revisions
  have hcopy : ∀ u r, onDisk sj.files u = some r → r.server = p.name → ∃ x, OwnRev job p.srv x ∧ x.uuid = u ∧
      r = { mirror p x with tags := leftTags sch now H p x } := by
    intro u r hd hsv
    obtain ⟨r0, k1, k2, k3, _⟩ := (h2 u r).1 ((e3 u r hsv).1 hd)
    rcases (hH.mem r0).1 k1 with ⟨m1, _, _⟩ | ⟨p', hp', x, hx, rfl⟩
    · rw [k3] at hsv; exact absurd (hsv.symm.trans m1) hpn
    · have hname : p'.name = p.name := by rw [k3] at hsv; exact hsv
      have : p' = p := by
        obtain ⟨i, hi⟩ := List.getElem?_of_mem hp'
        have e := List.getElem?_map (f := Peer.name) (l := peers) (i := i)
        have e' := List.getElem?_map (f := Peer.name) (l := peers) (i := j)
        rw [hi] at e
        rw [hj] at e'
        have hij : i = j := by
          have hil : i < (peers.map Peer.name).length := by
            rw [List.length_map]; exact (List.getElem?_eq_some_iff.1 hi).1
          refine (List.getElem?_inj hil hu.distinct).1 ?_
          rw [e, e']; simp [hname]
        subst hij
        rw [hi] at hj; cases hj; rfl
      subst this
      exact ⟨x, hx, k2, k3⟩
  constructor
  · intro hl hc
    have hown : OwnRev job p.srv q := ⟨(stored_eq (.inl hb) _).trans hq, hl, hc⟩
    have hmH : { q with origTags := q.tags, server := p.name } ∈ H := (hH.mem _).2 (.inr ⟨p, hp, q, hown, rfl⟩)
    have hd2 : onDisk s2.files q.uuid = some { mirror p q with tags := leftTags sch now H p q } :=
      (h2 _ _).2 ⟨_, hmH, rfl, rfl, fun h => hpn h.2⟩
    have hdj : onDisk sj.files q.uuid = some { mirror p q with tags := leftTags sch now H p q } := (e3 q.uuid _ rfl).2 hd2
    have hmj : { mirror p q with tags := leftTags sch now H p q } ∈ sj.history := (e2.mem _).2 hdj
    have h5 := e5 q.uuid _ rfl hd2
    by_cases hk : leftTags sch now H p q = q.tags
    · -- nothing to do
      have hexp : expired sch now H p q = some q := by
        unfold expired
        rw [if_neg (by rw [hk]; exact fun h => h.1 h.2), hk]
      have hno : ∀ r ∈ sj.history, r.uuid = q.uuid → r.clean = true → r.pending = true → r.server ≠ p.name := by
        intro r hr hru _ hpd _
        have : onDisk sj.files q.uuid = some r := hru ▸ (e2.mem r).1 hr
        rw [hdj] at this; cases this
        simp [Rev.pending, mirror, hk] at hpd
      obtain ⟨n1, n2⟩ := t2 q.uuid hno
      rw [hrem, hq] at n1
      refine ⟨.inl n1, fun _ _ => ⟨by rw [n1, hexp], ?_, fun h => (by rw [hexp] at h; cases h)⟩⟩
      rw [h5, n2, hdj, hexp, hk]
      rfl
    · have hmp : { mirror p q with tags := leftTags sch now H p q } ∈ pendingFor p.name sj :=
        (C50_what_is_pushed _ _ _).2 ⟨hmj, hc, rfl, hpn, hk⟩
      obtain ⟨i, hi⟩ := List.getElem?_of_mem hmp
      obtain ⟨d1, d2, d3, d4⟩ := t1 i _ hi
      have hne : q.tags ≠ ∅ := by
        intro h
        have : leftTags sch now H p q ⊆ q.tags := keptTags_sub _
        rw [h] at this
        exact hk (by rw [h]; exact Finset.subset_empty.1 this)
      have hexp : ∀ q0, q0 = q → (if leftTags sch now H p q = ∅ ∧ q0.server = "" then none
          else some { q0 with tags := leftTags sch now H p q }) = expired sch now H p q := by
        intro q0 hq0
        rw [hq0]
        unfold expired
        by_cases h : leftTags sch now H p q = ∅
        · rw [if_pos ⟨h, hl⟩, if_pos ⟨hne, h⟩]
        · rw [if_neg (fun h' => h h'.1), if_neg (fun h' => h h'.2)]
      have hdel : Delivered (p.net i) p.token job (asked pd job p) { mirror p q with tags := leftTags sch now H p q } →
          remoteRev srv' job q.uuid = expired sch now H p q := by
        intro h
        obtain ⟨q0, z1, _, z3⟩ := d1 h
        have : q0 = q := by
          rw [hrem] at z1
          exact Option.some.inj (z1.symm.trans hq)
        exact z3.trans (hexp q0 this)
      refine ⟨?_, fun hlock hnet => ?_⟩
      · by_cases h : Delivered (p.net i) p.token job (asked pd job p) { mirror p q with tags := leftTags sch now H p q }
        · exact .inr (hdel h)
        · have := d2 h
          rw [hrem] at this
          exact .inl (this.trans hq)
      · have hacc : Accepts p.token job (asked pd job p) { mirror p q with tags := leftTags sch now H p q } := by
          refine ⟨by rw [a2]; exact (hr p hp).token, _, q, a1, hlock, hq, rfl⟩
        refine ⟨hdel ⟨(by rw [hnet]; exact fun h => (by cases h)), hacc⟩, ?_, fun hnone => ?_⟩
        rotate_left
        · have hempty : leftTags sch now H p q = ∅ := by
            by_contra h
            unfold expired at hnone
            rw [if_neg (fun h' => h h'.2)] at hnone
            cases hnone
          rw [e4]
          exact C50_purge pd p.name p.token job p.net sj (asked pd job p) e2 hgood hpend i _ hi ⟨hnet i, hacc⟩ hempty
            (by rw [hnet]; exact fun h => (by cases h))
        rw [h5]
        have := d3 ⟨hnet i, hacc⟩
        refine this.trans ?_
        by_cases h : leftTags sch now H p q = ∅
        · have e : expired sch now H p q = none := if_pos ⟨hne, h⟩
          rw [e]
          exact if_pos h
        · have e : expired sch now H p q = some { q with tags := leftTags sch now H p q } := if_neg (fun h' => h h'.2)
          rw [e]
          exact if_neg h
  · intro hno
    have := (t2 q.uuid (fun r hm hru _ _ hsv => ?_)).1
    · rw [hrem, hq] at this; exact this
    · obtain ⟨x, hx, hxu, _⟩ := hcopy q.uuid r (hru ▸ (e2.mem r).1 hm) hsv
      have : stored job p.srv x.uuid = some q := by rw [hxu]; exact (stored_eq (.inl hb) _).trans hq
      rw [hx.stored] at this
      cases this
      exact hno ⟨hx.here, hx.complete⟩

/-- The repository here is the one of the run's model, in which the peers have been asked for their revisions. -/
theorem pushEach_own (pd : String → Option Int) (job : String) : ∀ (peers : List Peer) (s : Repo),
    (pushEach pd job peers s).1 = pushAll pd job (peers.map (fun p => { p with srv := asked pd job p })) s
  | [], _ => rfl
  | p :: rest, s => pushEach_own pd job rest _

theorem exchange_own (same : Rev → Rev → Bool) (sch : Schedule) (pd : String → Option Int) (now : String → Int) (job : String)
    (peers : List Peer) (s : Repo) : (exchange same sch pd now job peers s).map Prod.fst =
      own same (answers pd job peers) sch pd now job (peers.map (fun p => { p with srv := asked pd job p })) s := by
  unfold exchange own
  generalize pull same (answers pd job peers) s.scan.clean = x
  obtain ⟨x1, x2⟩ := x
  cases x1
  · rfl
  · dsimp only
    generalize sch.expire pd now x2 = y
    obtain ⟨y1, y2⟩ := y
    cases y1
    · rfl
    · exact congrArg some (pushEach_own pd job peers y2)

/-! ## An example: a VM has moved here from `old`, where three of its revisions are left -/

/-- A complete revision of a day. -/
def exAt (u : String) (day : Int) (tags origTags : Finset String) (server : String) : Rev :=
  { uuid := u, ts := seconds (day * DAY), stats := [("duration", 1)], trust := .trusted, tags := tags, origTags := origTags, server := server }

/-- An unfinished revision. -/
def exCut : Rev := { uuid := "zX", ts := seconds (99 * DAY), stats := [], trust := .trusted, tags := {"daily"}, origTags := ∅, server := "" }

/-- What the server has that the VM came from. -/
def exOld : Repo := Sync.exRepo [exAt "aX" 90 {"daily"} ∅ "", exAt "bX" 91 {"daily", "weekly"} ∅ "", exAt "cX" 102 {"daily"} ∅ "", exCut]

def exPeer : Peer := ⟨"old", "secret", fun _ => .ok, ⟨[("secret", "here")], [("vm", ⟨exOld, false, false, 0, false⟩)], [], 0⟩⟩

/-- A server that has never had the VM. -/
def exOther : Peer := ⟨"other", "secret", fun _ => .ok, ⟨[("secret", "here")], [], [], 0⟩⟩

/-- The repository here: two revisions made here, one of them too old, and an outdated copy. -/
def exHere : Repo := Sync.exRepo [exAt "nX" 104 {"daily"} ∅ "", exAt "mX" 95 {"daily"} ∅ "", exAt "aX" 90 {"x"} {"x"} "old"]

theorem exOld_named : Named exOld.files := exRepo_named (by decide +kernel)

theorem exPeer_dead {b : Api.Backup} (h : exPeer.srv.dead.get? "vm" = some b) : b.repo = exOld := by
  have : exPeer.srv.dead.get? "vm" = some ⟨exOld, false, false, 0, false⟩ := rfl
  rw [this] at h; cases h; rfl

theorem exPeer_own {q : Rev} (h : OwnRev "vm" exPeer.srv q) : q.uuid = "aX" ∨ q.uuid = "bX" ∨ q.uuid = "cX" := by
  have h1 : onDisk exOld.files q.uuid = some q := (stored_eq (.inl (show exPeer.srv.dead.get? "vm" = some ⟨exOld, false, false, 0, false⟩ from rfl)) _).symm.trans h.stored
  have h2 := (Repo.scan_mem exOld_named q).2 h1
  have h3 : exOld.scan.history = [exAt "aX" 90 {"daily"} ∅ "", exAt "bX" 91 {"daily", "weekly"} ∅ "", exCut, exAt "cX" 102 {"daily"} ∅ ""] := by
    decide +kernel
  rw [h3] at h2
  simp only [List.mem_cons, List.not_mem_nil, or_false] at h2
  rcases h2 with rfl | rfl | rfl | rfl
  · exact .inl rfl
  · exact .inr (.inl rfl)
  · exact absurd h.complete (by decide +kernel)
  · exact .inr (.inr rfl)

theorem exOther_own {q : Rev} (h : OwnRev "vm" exOther.srv q) : False := by
  have := h.stored
  cases this

theorem exReachable : ∀ p ∈ [exPeer, exOther], Reachable "vm" p := by
  intro p hp
  simp only [List.mem_cons, List.not_mem_nil, or_false] at hp
  rcases hp with rfl | rfl
  · refine ⟨⟨"here", rfl, by decide⟩, fun n _ => rfl, fun b hb => ?_, fun b hb => by cases hb⟩
    rw [exPeer_dead hb]; exact exOld_named
  · exact ⟨⟨"here", rfl, by decide⟩, fun n _ => rfl, fun b hb => (by cases hb), fun b hb => (by cases hb)⟩

theorem exUnique : Unique "vm" [exPeer, exOther] exHere := by
  refine ⟨by decide, by decide, ?_, ?_, ?_⟩
  · intro p hp q hq x hx
    simp only [List.mem_cons, List.not_mem_nil, or_false] at hp
    rcases hp with rfl | rfl
    · rcases exPeer_own hq with h | h | h <;> rw [h] at hx
      · have : onDisk exHere.files "aX" = some (exAt "aX" 90 {"x"} {"x"} "old") := by decide +kernel
        rw [this] at hx; cases hx; rfl
      · have : onDisk exHere.files "bX" = none := by decide +kernel
        rw [this] at hx; cases hx
      · have : onDisk exHere.files "cX" = none := by decide +kernel
        rw [this] at hx; cases hx
    · exact (exOther_own hq).elim
  · intro p hp p' hp' q q' hq hq' _
    simp only [List.mem_cons, List.not_mem_nil, or_false] at hp hp'
    rcases hp with rfl | rfl
    · rcases hp' with rfl | rfl
      · rfl
      · exact (exOther_own hq').elim
    · exact (exOther_own hq).elim
  · intro p hp q hq
    simp only [List.mem_cons, List.not_mem_nil, or_false] at hp
    rcases hp with rfl | rfl
    · rcases exPeer_own hq with h | h | h <;> rw [h] <;> exact ⟨by decide, by decide, by decide, by decide⟩
    · exact (exOther_own hq).elim

/-- With a schedule that keeps two daily revisions and one weekly, the run leaves on the old server what is still needed. -/
example : GoodSchedule exSchedule ∧ Named exHere.files ∧ (∀ p ∈ [exPeer, exOther], Reachable "vm" p) ∧
    Unique "vm" [exPeer, exOther] exHere ∧
    ∃ s' a b, exchange sameRev exSchedule (fun _ => none) (fun _ => seconds (105 * DAY)) "vm" [exPeer, exOther] exHere = some (s', [a, b]) ∧
      s'.files.keys = ["nX", "bX", "cX"] ∧
      remoteRev a "vm" "aX" = none ∧ remoteRev a "vm" "bX" = some (exAt "bX" 91 {"weekly"} ∅ "") ∧
      remoteRev a "vm" "cX" = some (exAt "cX" 102 {"daily"} ∅ "") ∧ remoteRev a "vm" "zX" = some exCut := by
  refine ⟨exSchedule_good, exRepo_named (by decide +kernel), exReachable, exUnique, ?_⟩
  have h : (match exchange sameRev exSchedule (fun _ => none) (fun _ => seconds (105 * DAY)) "vm" [exPeer, exOther] exHere with
      | some (s', [a, _]) => decide (s'.files.keys = ["nX", "bX", "cX"]) && decide (remoteRev a "vm" "aX" = none) &&
          decide (remoteRev a "vm" "bX" = some (exAt "bX" 91 {"weekly"} ∅ "")) &&
          decide (remoteRev a "vm" "cX" = some (exAt "cX" 102 {"daily"} ∅ "")) && decide (remoteRev a "vm" "zX" = some exCut)
      | _ => false) = true := by decide +kernel
  generalize exchange sameRev exSchedule (fun _ => none) (fun _ => seconds (105 * DAY)) "vm" [exPeer, exOther] exHere = x at h
  match x, h with
  | some (s', [a, b]), h =>
    simp only [Bool.and_eq_true, decide_eq_true_eq] at h
    exact ⟨s', a, b, rfl, h.1.1.1.1, h.1.1.1.2, h.1.1.2, h.1.2, h.2⟩

example := C103_other_servers sameRev (fun a b h => by simpa [sameRev] using h) exSchedule exSchedule_good (fun _ => none) (fun _ => seconds (105 * DAY)) "vm" [exPeer, exOther] exHere
  (exRepo_named (by decide +kernel)) exReachable exUnique

end Verif.Moved
