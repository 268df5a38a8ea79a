import Verif.Props.Pull
/-!
# C50: pushing transfers tag changes exactly; C51: a change that is not confirmed stays pending
-/
namespace Verif.Sync
open Verif Verif.Repo Verif.Repo.Spec Verif.Api

/-- An id as backy makes them (`revision.py:60-61`, shortuuid): letters and digits, not a number and not a keyword. -/
structure PlainId (u : String) : Prop where
  nonempty : u ≠ ""
  alnum : ∀ c ∈ u.toList, c.isAlphanum = true
  notNumber : pyInt u.toList = none
  notKeyword : u ∉ ["all", "clean", "local", "remote", "last", "latest", "first"]

theorem PlainId.startsWith {u : String} (h : PlainId u) {p : String} (hp : ':' ∈ p.toList) : Verif.Repo.startsWith u p = false := by
  cases hs : Verif.Repo.startsWith u p with
  | false => rfl
  | true =>
    unfold Verif.Repo.startsWith at hs
    rw [List.isPrefixOf_iff_prefix] at hs
    have := h.alnum ':' (hs.subset hp)
    exact absurd this (by decide)

theorem PlainId.plain {u : String} (h : PlainId u) : PlainWord u := by
  apply plainWord_of
  · intro c hc
    have hc := h.alnum c hc
    refine ⟨?_, ?_, ?_, ?_, ?_, ?_⟩
    · rintro rfl; exact absurd hc (by decide)
    · rintro rfl; exact absurd hc (by decide)
    · rintro rfl; exact absurd hc (by decide)
    · rintro rfl; exact absurd hc (by decide)
    · rintro rfl; exact absurd hc (by decide)
    · cases hw : c.isWhitespace with
      | false => rfl
      | true =>
        unfold Char.isWhitespace at hw
        simp only [Bool.or_eq_true, decide_eq_true_eq] at hw
        rcases hw with ((rfl | rfl) | rfl) | rfl <;> exact absurd hc (by decide)
  · intro he
    apply h.nonempty
    rw [← String.toList_inj, he]; rfl

theorem PlainId.noCall {u : String} (h : PlainId u) : isFirstLastCall u = false := by
  unfold isFirstLastCall
  rw [Bool.and_eq_false_iff]
  right
  cases hl : u.toList.getLast? with
  | none => rfl
  | some c =>
    have hc := h.alnum c (List.mem_of_getLast? hl)
    simp only [beq_eq_false_iff_ne, ne_eq, Option.some.injEq]
    rintro rfl; exact absurd hc (by decide)

theorem findRevisions_id (c : Ctx) {u : String} (h : PlainId u) :
    findRevisions c u = match find c u with
      | .error e => .error e
      | .ok r => .ok [r] := by
  have hp := h.plain
  unfold findRevisions
  have ht := tokenize_noSep hp.noSep hp.trimmed hp.nonempty
  rw [String.ofList_toList] at ht
  have hw : ∀ v ∈ seps, u ≠ v := by
    intro v hv e
    exact hp.word (e ▸ hv)
  rw [ht, List.map_cons, List.map_nil, evalToks_atom c _ (hw _ (by decide)) (hw _ (by decide)) (hw _ (by decide)) (hw _ (by decide))]
  have hf : findTok c.history u = find c u := by
    unfold findTok find
    dsimp only
    unfold findByFunction
    rw [strip_trimmed hp.trimmed, String.ofList_toList, h.noCall]; rfl
  have hk := h.notKeyword
  simp only [List.mem_cons, List.not_mem_nil, or_false, not_or] at hk
  unfold evalAtom
  rw [h.startsWith (by decide), h.startsWith (by decide), h.startsWith (by decide)]
  simp only [Bool.false_eq_true, if_false, hk.1, hk.2.1, hk.2.2.1, hk.2.2.2.1, hf]
  cases find c u <;> rfl

theorem findRevisions_known {s : Repo} (hn : Named s.files) (pd : String → Option Int) {u : String} (h : PlainId u) {q : Rev}
    (hq : onDisk s.files u = some q) : findRevisions ⟨s.scan.history, pd⟩ u = .ok [q] := by
  have hu : q.uuid = u := Named.uuid hn hq
  have hm : q ∈ s.scan.history := (Repo.scan_mem hn q).2 (hu.symm ▸ hq)
  rw [findRevisions_id _ h]
  have := C36_id ⟨s.scan.history, pd⟩ q hm s.scan_nodup (hu ▸ h.plain.trimmed) (hu ▸ h.nonempty) (hu ▸ h.notNumber)
  rw [hu] at this
  rw [this]

theorem findRevisions_unknown {s : Repo} (hn : Named s.files) (pd : String → Option Int) {u : String} (h : PlainId u)
    (hq : onDisk s.files u = none) : findRevisions ⟨s.scan.history, pd⟩ u = .error .key := by
  have hk := h.notKeyword
  simp only [List.mem_cons, List.not_mem_nil, or_false, not_or] at hk
  rw [findRevisions_id _ h, C36_unknown ⟨s.scan.history, pd⟩ u h.plain.trimmed h.notNumber ?_ ⟨hk.2.2.2.2.1, hk.2.2.2.2.2.1, hk.2.2.2.2.2.2⟩ (by rw [← isFirstLastCall_iff, h.noCall]; simp)]
  intro r hr hru
  have := (Repo.scan_mem hn r).1 hr
  rw [hru, hq] at this; cases this

/-! ## One request -/

/-- The metadata of a revision in an inactive repository of the origin. -/
def remoteRev (srv : Server) (name u : String) : Option Rev := (srv.dead.get? name).bind (fun b => onDisk b.repo.files u)

/-- The origin takes the change: it knows the token, has the repository without a job, not locked by another process, and the
revision there still has the tags last seen. -/
def Accepts (token name : String) (srv : Server) (r : Rev) : Prop :=
  (∃ client, srv.tokens.get? token = some client ∧ client ≠ "") ∧
  ∃ b q, srv.dead.get? name = some b ∧ b.locked = false ∧ onDisk b.repo.files r.uuid = some q ∧ q.tags = r.origTags

/-- What is to become of the origin's revision. -/
def transferred (r : Rev) (q : Rev) : Option Rev :=
  if r.tags = ∅ ∧ q.server = "" then none else some { q with tags := r.tags }

/-- The servers agree on everything but the revisions of the inactive repository `name`. -/
structure SameBut (name : String) (srv srv' : Server) : Prop where
  tokens : srv'.tokens = srv.tokens
  jobs : srv'.jobs = srv.jobs
  others : ∀ n, n ≠ name → srv'.dead.get? n = srv.dead.get? n
  none : srv'.dead.get? name = none ↔ srv.dead.get? name = none
  locked : ∀ b b', srv.dead.get? name = some b → srv'.dead.get? name = some b' → b'.locked = b.locked

theorem SameBut.refl (name : String) (srv : Server) : SameBut name srv srv :=
  ⟨rfl, rfl, fun _ _ => rfl, Iff.rfl, fun b b' h h' => by rw [h] at h'; cases h'; rfl⟩

theorem SameBut.trans {name : String} {a b c : Server} (h : SameBut name a b) (h' : SameBut name b c) : SameBut name a c := by
  refine ⟨h'.tokens.trans h.tokens, h'.jobs.trans h.jobs, fun n hn => (h'.others n hn).trans (h.others n hn),
    h'.none.trans h.none, ?_⟩
  intro x z hx hz
  cases hy : b.dead.get? name with
  | none => rw [h.none] at hy; rw [hx] at hy; cases hy
  | some y => rw [h'.locked y z hy hz, h.locked x y hx hy]

/-- A server whose inactive repository `name` is well-formed. -/
structure Good (name : String) (srv : Server) : Prop where
  separate : Separate srv
  named : ∀ b, srv.dead.get? name = some b → Named b.repo.files

theorem SameBut.put {name : String} {srv : Server} {b b' : Backup} (h : srv.dead.get? name = some b) (hl : b'.locked = b.locked) :
    SameBut name srv (srv.put .dead name b') := by
  refine ⟨rfl, rfl, fun n hn => Dict.get?_set_ne _ _ hn, ?_, ?_⟩
  · show (srv.dead.set name b').get? name = Option.none ↔ _
    rw [Dict.get?_set_self, h]; simp
  · intro x x' hx hx'
    have hx' : (srv.dead.set name b').get? name = some x' := hx'
    rw [Dict.get?_set_self] at hx'; rw [h] at hx; cases hx; cases hx'; exact hl

theorem Good.put {name : String} {srv : Server} (hg : Good name srv) {b b' : Backup} (h : srv.dead.get? name = some b)
    (hn : Named b'.repo.files) : Good name (srv.put .dead name b') := by
  refine ⟨?_, ?_⟩
  · intro n hne
    apply hg.separate n
    have hne : (srv.dead.set name b').get? n ≠ none := hne
    rw [Dict.get?_set] at hne
    by_cases hnn : n = name
    · subst hnn; rw [h]; simp
    · rwa [if_neg hnn] at hne
  · intro x hx
    have hx : (srv.dead.set name b').get? name = some x := hx
    rw [Dict.get?_set_self] at hx; cases hx; exact hn

/-- The effect of one `put_tags` request on the origin. -/
theorem putRequest_spec (pd : String → Option Int) (token name : String) (srv : Server) (hg : Good name srv) (r : Rev)
    (hid : PlainId r.uuid) :
    SameBut name srv (handle pd srv (putRequest token name r)).2 ∧ Good name (handle pd srv (putRequest token name r)).2 ∧
    ((handle pd srv (putRequest token name r)).1.code < 400 ↔ Accepts token name srv r) ∧
    (∀ u, u ≠ r.uuid → remoteRev (handle pd srv (putRequest token name r)).2 name u = remoteRev srv name u) ∧
    (Accepts token name srv r → remoteRev (handle pd srv (putRequest token name r)).2 name r.uuid =
      (remoteRev srv name r.uuid).bind (transferred r)) ∧
    (¬ Accepts token name srv r → ∀ u, remoteRev (handle pd srv (putRequest token name r)).2 name u = remoteRev srv name u) := by
  have hauth : Authorized srv.tokens (putRequest token name r) ↔ ∃ client, srv.tokens.get? token = some client ∧ client ≠ "" := by
    unfold Authorized putRequest
    constructor
    · rintro ⟨t, c, ht, hc⟩
      have : token = t := by
        simp only [Option.some.injEq] at ht
        have := congrArg String.toList ht
        rw [String.toList_append, String.toList_append] at this
        exact String.toList_inj.1 (List.append_cancel_left this)
      subst this; exact ⟨c, hc⟩
    · rintro ⟨c, hc⟩; exact ⟨token, c, rfl, hc⟩
  by_cases ha : Authorized srv.tokens (putRequest token name r)
  case neg =>
    have hnone : authenticate srv.tokens (putRequest token name r) = none := by
      cases hx : authenticate srv.tokens (putRequest token name r) with
      | none => rfl
      | some c => exact absurd ((authenticate_iff _ _).1 (by rw [hx]; simp)) ha
    have hh : handle pd srv (putRequest token name r) = (⟨401, []⟩, srv) := by
      unfold handle; rw [hnone]
    have hna : ¬ Accepts token name srv r := fun h => ha (hauth.2 h.1)
    rw [hh]
    exact ⟨.refl _ _, hg, ⟨fun h => absurd h (Nat.not_lt.2 (by decide : 400 ≤ 401)), fun h => absurd h hna⟩, fun _ _ => rfl, fun h => absurd h hna, fun _ _ => rfl⟩
  case pos =>
    obtain ⟨c1, c2, c3⟩ := C47_put_tags pd srv hg.separate (putRequest token name r) name r.uuid r.origTags r.tags true ha rfl
    cases hd : srv.dead.get? name with
    | none =>
      have hna : ¬ Accepts token name srv r := by
        rintro ⟨_, b, q, hb, _⟩; rw [hd] at hb; cases hb
      have hh : ∃ c, 400 ≤ c ∧ handle pd srv (putRequest token name r) = (⟨c, []⟩, srv) := by
        by_cases hj : srv.jobs.get? name = none
        · exact ⟨404, by decide, c2 hj hd⟩
        · exact ⟨403, by decide, c1 hj⟩
      obtain ⟨c, hc, hh⟩ := hh
      rw [hh]
      exact ⟨.refl _ _, hg, ⟨fun h => absurd h (by simp only; omega), fun h => absurd h hna⟩, fun _ _ => rfl, fun h => absurd h hna, fun _ _ => rfl⟩
    | some b =>
      have hnb := hg.named b hd
      -- the shape of the server afterwards
      have hshape : ∃ b1, (handle pd srv (putRequest token name r)).2 = srv.put .dead name b1 ∧ b1.locked = b.locked ∧ Named b1.repo.files := by
        have hne : authenticate srv.tokens (putRequest token name r) ≠ none := (authenticate_iff _ _).2 ha
        have hh : handle pd srv (putRequest token name r) = putTags pd srv name r.uuid (.obj (some r.origTags) (some r.tags)) true := by
          unfold handle
          split
          · rename_i h; exact absurd h hne
          · rfl
        have hgb : getBackup srv name false = .ok (.dead, b) := by simp [getBackup, hd]
        rw [hh]
        by_cases hl : b.locked = true
        · exact ⟨{ b with repo := b.repo.scan }, by simp only [putTags, hgb, hl, if_true], rfl, hnb⟩
        · refine ⟨{ b with repo := (b.repo.scan.tagsOp [] pd "set" r.uuid r.tags (some r.origTags) true true).2 },
            by simp only [putTags, hgb, if_neg hl], rfl, ?_⟩
          have : All (fun _ => True) b.repo.scan := ⟨fun _ _ => trivial, fun _ _ _ => trivial, hnb⟩
          exact (this.tagsOp (fun _ _ _ _ _ _ _ => trivial) [] pd "set" r.uuid r.tags (some r.origTags) true true).named
      obtain ⟨b1, hs1, hl1, hn1⟩ := hshape
      obtain ⟨b', hb', _, k1, k2⟩ := c3 b hd
      have hbb : b1 = b' := by
        rw [hs1] at hb'
        have hb' : (srv.dead.set name b1).get? name = some b' := hb'
        rw [Dict.get?_set_self] at hb'; exact Option.some.inj hb'
      subst hbb
      have hrem : ∀ u, remoteRev (handle pd srv (putRequest token name r)).2 name u = onDisk b1.repo.files u := by
        intro u; unfold remoteRev; rw [hb']; rfl
      have hrem0 : ∀ u, remoteRev srv name u = onDisk b.repo.files u := by
        intro u; unfold remoteRev; rw [hd]; rfl
      have hsb : SameBut name srv (handle pd srv (putRequest token name r)).2 := by rw [hs1]; exact .put hd hl1
      have hgood : Good name (handle pd srv (putRequest token name r)).2 := by rw [hs1]; exact hg.put hd hn1
      refine ⟨hsb, hgood, ?_⟩
      simp only [hrem, hrem0]
      -- refused, nothing changed
      have refused : ¬ Accepts token name srv r → 400 ≤ (handle pd srv (putRequest token name r)).1.code → b1.repo.files = b.repo.files →
          ((handle pd srv (putRequest token name r)).1.code < 400 ↔ Accepts token name srv r) ∧
          (∀ u, u ≠ r.uuid → onDisk b1.repo.files u = onDisk b.repo.files u) ∧
          (Accepts token name srv r → onDisk b1.repo.files r.uuid = (onDisk b.repo.files r.uuid).bind (transferred r)) ∧
          (¬ Accepts token name srv r → ∀ u, onDisk b1.repo.files u = onDisk b.repo.files u) := by
        intro h1 h2 h3
        rw [h3]
        exact ⟨⟨fun h => absurd h (by omega), fun h => absurd h h1⟩, fun _ _ => rfl, fun h => absurd h h1, fun _ _ => rfl⟩
      cases hl : b.locked with
      | true =>
        obtain ⟨k3, k4⟩ := k1 hl
        apply refused _ (by omega) k4
        rintro ⟨_, b2, q, hb2, hl2, _⟩
        rw [hd] at hb2; cases hb2; rw [hl] at hl2; cases hl2
      | false =>
        obtain ⟨k3, k4⟩ := k2 hl
        cases hq : onDisk b.repo.files r.uuid with
        | none =>
          obtain ⟨k5, k6⟩ := k3 _ (findRevisions_unknown hnb pd hid hq)
          rw [if_pos rfl] at k5
          rw [← hq]
          apply refused _ (by omega) k6
          rintro ⟨_, b2, q, hb2, _, hq2, _⟩
          rw [hd] at hb2; cases hb2; rw [hq] at hq2; cases hq2
        | some q =>
          obtain ⟨k5, k6⟩ := k4 _ (findRevisions_known hnb pd hid hq)
          have hqu : q.uuid = r.uuid := Named.uuid hnb hq
          by_cases ht : q.tags = r.origTags
          · have hacc : Accepts token name srv r := ⟨hauth.1 ha, b, q, hd, hl, hq, ht⟩
            obtain ⟨m1, m2, m3⟩ := k6 (by intro x hx; rw [List.mem_singleton] at hx; rw [hx]; exact ht)
            refine ⟨⟨fun _ => hacc, fun _ => by omega⟩, ?_, fun _ => ?_, fun h => absurd hacc h⟩
            · intro u hu
              exact m3 u (by intro x hx; rw [List.mem_singleton] at hx; rw [hx, hqu]; exact Ne.symm hu)
            · have := m2 q (by simp)
              rw [hqu] at this
              rw [this]
              show _ = transferred r q
              unfold transferred
              by_cases h1 : r.tags = ∅ <;> by_cases h2 : q.server = "" <;> simp [h1, h2, hqu]
          · obtain ⟨m1, m2⟩ := k5 ⟨q, by simp, ht⟩
            rw [← hq]
            apply refused _ (by omega) m2
            rintro ⟨_, b2, q2, hb2, _, hq2, ht2⟩
            rw [hd] at hb2; cases hb2; rw [hq] at hq2; cases hq2; exact ht ht2

/-! ## One step of the loop -/

/-- The request reaches the origin and is accepted. -/
def Delivered (net : Net) (token name : String) (srv : Server) (r : Rev) : Prop := net ≠ .requestLost ∧ Accepts token name srv r

/-- In addition the answer arrives. -/
def Confirmed (net : Net) (token name : String) (srv : Server) (r : Rev) : Prop := net = .ok ∧ Accepts token name srv r

theorem pushOne_spec (pd : String → Option Int) (token name : String) (net : Net) (r : Rev) (p : Push) (hg : Good name p.srv)
    (hid : PlainId r.uuid) :
    SameBut name p.srv (pushOne pd token name net r p).srv ∧ Good name (pushOne pd token name net r p).srv ∧
    (∀ u, u ≠ r.uuid → remoteRev (pushOne pd token name net r p).srv name u = remoteRev p.srv name u ∧
      onDisk (pushOne pd token name net r p).s.files u = onDisk p.s.files u) ∧
    (Delivered net token name p.srv r → remoteRev (pushOne pd token name net r p).srv name r.uuid =
      (remoteRev p.srv name r.uuid).bind (transferred r)) ∧
    (¬ Delivered net token name p.srv r → remoteRev (pushOne pd token name net r p).srv name r.uuid = remoteRev p.srv name r.uuid) ∧
    (Confirmed net token name p.srv r → onDisk (pushOne pd token name net r p).s.files r.uuid =
      if r.tags = ∅ then none else some { r with origTags := r.tags }) ∧
    (¬ Confirmed net token name p.srv r → (pushOne pd token name net r p).s = p.s) ∧
    ((pushOne pd token name net r p).error = true ↔ p.error = true ∨ ¬ Confirmed net token name p.srv r) ∧
    ((pushOne pd token name net r p).purge = true ↔ p.purge = true ∨ (Confirmed net token name p.srv r ∧ r.tags = ∅)) := by
  obtain ⟨a1, a2, a3, a4, a5, a6⟩ := putRequest_spec pd token name p.srv hg r hid
  have hsrv : (pushOne pd token name net r p).srv = (send pd net (putRequest token name r) p.srv).2 := by
    unfold pushOne; split
    · split <;> rfl
    · rfl
  have hsucc : succeeded (send pd net (putRequest token name r) p.srv).1 = true ↔ Confirmed net token name p.srv r := by
    unfold Confirmed
    cases net with
    | ok => simp only [send, succeeded, decide_eq_true_eq, true_and]; exact a3
    | requestLost => simp [send, succeeded]
    | responseLost => simp [send, succeeded]
  have hloc : ∀ u, u ≠ r.uuid → onDisk (pushOne pd token name net r p).s.files u = onDisk p.s.files u := by
    intro u hu
    unfold pushOne
    split
    · split
      · rw [remove_force]; show onDisk (p.s.files.erase r.uuid) u = _; rw [onDisk_erase, if_neg hu]
      · exact (onDisk_set (files := p.s.files) { r with origTags := r.tags } u).trans (if_neg hu)
    · rfl
  have hlocal : (Confirmed net token name p.srv r → onDisk (pushOne pd token name net r p).s.files r.uuid =
      if r.tags = ∅ then none else some { r with origTags := r.tags }) ∧
      (¬ Confirmed net token name p.srv r → (pushOne pd token name net r p).s = p.s) ∧
      ((pushOne pd token name net r p).error = true ↔ p.error = true ∨ ¬ Confirmed net token name p.srv r) ∧
      ((pushOne pd token name net r p).purge = true ↔ p.purge = true ∨ (Confirmed net token name p.srv r ∧ r.tags = ∅)) := by
    by_cases hc : Confirmed net token name p.srv r
    · have hs := hsucc.2 hc
      unfold pushOne
      rw [if_pos hs]
      by_cases ht : r.tags = ∅
      · rw [if_pos ht, if_pos ht]
        refine ⟨fun _ => ?_, fun h => absurd hc h, by simp [hc], by simp [hc, ht]⟩
        rw [remove_force]; show onDisk (p.s.files.erase r.uuid) r.uuid = _; rw [onDisk_erase, if_pos rfl]
      · rw [if_neg ht, if_neg ht]
        refine ⟨fun _ => ?_, fun h => absurd hc h, by simp [hc], by simp [ht]⟩
        exact (onDisk_set ..).trans (if_pos rfl)
    · have hs : ¬ (succeeded (send pd net (putRequest token name r) p.srv).1 = true) := fun h => hc (hsucc.1 h)
      unfold pushOne
      rw [if_neg hs]
      exact ⟨fun h => absurd h hc, fun _ => rfl, by simp [hc], by simp [hc]⟩
  obtain ⟨l1, l2, l3, l4⟩ := hlocal
  rw [hsrv]
  cases net with
  | ok =>
    refine ⟨a1, a2, fun u hu => ⟨a4 u hu, hloc u hu⟩, fun h => a5 h.2, fun h => a6 (fun ha => h ⟨by simp, ha⟩) _, l1, l2, l3, l4⟩
  | requestLost =>
    refine ⟨.refl _ _, hg, fun u hu => ⟨rfl, hloc u hu⟩, fun h => absurd rfl h.1, fun _ => rfl, l1, l2, l3, l4⟩
  | responseLost =>
    refine ⟨a1, a2, fun u hu => ⟨a4 u hu, hloc u hu⟩, fun h => a5 h.2, fun h => a6 (fun ha => h ⟨by simp, ha⟩) _, l1, l2, l3, l4⟩

theorem Accepts.congr {token name : String} {srv srv' : Server} {r : Rev} (h : SameBut name srv srv')
    (hr : remoteRev srv' name r.uuid = remoteRev srv name r.uuid) : Accepts token name srv' r ↔ Accepts token name srv r := by
  unfold Accepts
  rw [h.tokens]
  apply and_congr_right
  intro _
  unfold remoteRev at hr
  cases hd : srv.dead.get? name with
  | none =>
    have := h.none.2 hd
    rw [this]
  | some b =>
    cases hd' : srv'.dead.get? name with
    | none => rw [h.none.1 hd'] at hd; cases hd
    | some b' =>
      rw [hd, hd'] at hr
      have hl := h.locked b b' hd hd'
      simp only [Option.bind_some] at hr
      constructor
      · rintro ⟨x, q, hx, h1, h2, h3⟩
        cases hx
        exact ⟨b, q, rfl, hl ▸ h1, hr ▸ h2, h3⟩
      · rintro ⟨x, q, hx, h1, h2, h3⟩
        cases hx
        exact ⟨b', q, rfl, hl.symm ▸ h1, hr.symm ▸ h2, h3⟩

/-! ## The loop -/

theorem pushLoop_spec (pd : String → Option Int) (token name : String) (net : Nat → Net) : ∀ (l : List Rev) (k : Nat) (p : Push),
    Good name p.srv → (∀ r ∈ l, PlainId r.uuid) → (l.map Rev.uuid).Nodup →
    SameBut name p.srv (pushLoop pd token name net k l p).srv ∧ Good name (pushLoop pd token name net k l p).srv ∧
    (∀ u, (∀ r ∈ l, r.uuid ≠ u) → remoteRev (pushLoop pd token name net k l p).srv name u = remoteRev p.srv name u ∧
      onDisk (pushLoop pd token name net k l p).s.files u = onDisk p.s.files u) ∧
    (∀ i r, l[i]? = some r →
      (Delivered (net (k + i)) token name p.srv r → remoteRev (pushLoop pd token name net k l p).srv name r.uuid =
        (remoteRev p.srv name r.uuid).bind (transferred r)) ∧
      (¬ Delivered (net (k + i)) token name p.srv r →
        remoteRev (pushLoop pd token name net k l p).srv name r.uuid = remoteRev p.srv name r.uuid) ∧
      (Confirmed (net (k + i)) token name p.srv r → onDisk (pushLoop pd token name net k l p).s.files r.uuid =
        if r.tags = ∅ then none else some { r with origTags := r.tags }) ∧
      (¬ Confirmed (net (k + i)) token name p.srv r →
        onDisk (pushLoop pd token name net k l p).s.files r.uuid = onDisk p.s.files r.uuid)) ∧
    ((pushLoop pd token name net k l p).error = true ↔
      p.error = true ∨ ∃ i r, l[i]? = some r ∧ ¬ Confirmed (net (k + i)) token name p.srv r) ∧
    ((pushLoop pd token name net k l p).purge = true ↔
      p.purge = true ∨ ∃ i r, l[i]? = some r ∧ Confirmed (net (k + i)) token name p.srv r ∧ r.tags = ∅)
  | [], k, p, hg, _, _ => by
    refine ⟨.refl _ _, hg, fun _ _ => ⟨rfl, rfl⟩, fun i r h => by simp at h, by simp [pushLoop], by simp [pushLoop]⟩
  | r :: rest, k, p, hg, hid, hn => by
    rw [List.map_cons, List.nodup_cons] at hn
    obtain ⟨b1, b2, b3, b4, b5, b6, b7, b8, b9⟩ := pushOne_spec pd token name (net k) r p hg (hid r (by simp))
    have hrest : ∀ x ∈ rest, x.uuid ≠ r.uuid := fun x hx e => hn.1 (List.mem_map.2 ⟨x, hx, e⟩)
    obtain ⟨c1, c2, c3, c4, c5, c6⟩ := pushLoop_spec pd token name net rest (k + 1) (pushOne pd token name (net k) r p) b2
      (fun x hx => hid x (by simp [hx])) hn.2
    have hacc : ∀ x ∈ rest, (Accepts token name (pushOne pd token name (net k) r p).srv x ↔ Accepts token name p.srv x) := by
      intro x hx
      exact Accepts.congr b1 (b3 x.uuid (hrest x hx)).1
    have hconf : ∀ x ∈ rest, ∀ nt, (Confirmed nt token name (pushOne pd token name (net k) r p).srv x ↔ Confirmed nt token name p.srv x) :=
      fun x hx nt => and_congr_right (fun _ => hacc x hx)
    have hdel : ∀ x ∈ rest, ∀ nt, (Delivered nt token name (pushOne pd token name (net k) r p).srv x ↔ Delivered nt token name p.srv x) :=
      fun x hx nt => and_congr_right (fun _ => hacc x hx)
    simp only [pushLoop]
    refine ⟨b1.trans c1, c2, ?_, ?_, ?_, ?_⟩
    · intro u hu
      obtain ⟨d1, d2⟩ := c3 u (fun x hx => hu x (by simp [hx]))
      obtain ⟨d3, d4⟩ := b3 u (Ne.symm (hu r (by simp)))
      exact ⟨d1.trans d3, d2.trans d4⟩
    · intro i x hx
      cases i with
      | zero =>
        simp only [List.getElem?_cons_zero, Option.some.injEq] at hx
        subst hx
        obtain ⟨d1, d2⟩ := c3 r.uuid hrest
        rw [d1, d2]
        simp only [Nat.add_zero]
        exact ⟨b4, b5, b6, fun h => by rw [b7 h]⟩
      | succ i =>
        rw [List.getElem?_cons_succ] at hx
        have hxm := List.mem_of_getElem? hx
        have e : k + (i + 1) = k + 1 + i := by omega
        rw [e]
        obtain ⟨d1, d2, d3, d4⟩ := c4 i x hx
        obtain ⟨d5, d6⟩ := b3 x.uuid (hrest x hxm)
        rw [hdel x hxm, d5] at d1 d2
        rw [hconf x hxm] at d3
        rw [hconf x hxm, d6] at d4
        exact ⟨d1, d2, d3, d4⟩
    · rw [c5, b8]
      constructor
      · rintro ((h | h) | ⟨i, x, hx, h⟩)
        · exact .inl h
        · exact .inr ⟨0, r, rfl, h⟩
        · rw [hconf x (List.mem_of_getElem? hx)] at h
          exact .inr ⟨i + 1, x, hx, by rw [show k + (i + 1) = k + 1 + i by omega]; exact h⟩
      · rintro (h | ⟨i, x, hx, h⟩)
        · exact .inl (.inl h)
        · cases i with
          | zero =>
            simp only [List.getElem?_cons_zero, Option.some.injEq] at hx
            subst hx; exact .inl (.inr h)
          | succ i =>
            rw [List.getElem?_cons_succ] at hx
            refine .inr ⟨i, x, hx, ?_⟩
            rw [hconf x (List.mem_of_getElem? hx), show k + 1 + i = k + (i + 1) by omega]; exact h
    · rw [c6, b9]
      constructor
      · rintro ((h | h) | ⟨i, x, hx, h⟩)
        · exact .inl h
        · exact .inr ⟨0, r, rfl, h⟩
        · rw [hconf x (List.mem_of_getElem? hx)] at h
          exact .inr ⟨i + 1, x, hx, by rw [show k + (i + 1) = k + 1 + i by omega]; exact h⟩
      · rintro (h | ⟨i, x, hx, h⟩)
        · exact .inl (.inl h)
        · cases i with
          | zero =>
            simp only [List.getElem?_cons_zero, Option.some.injEq] at hx
            subst hx; exact .inl (.inr h)
          | succ i =>
            rw [List.getElem?_cons_succ] at hx
            refine .inr ⟨i, x, hx, ?_⟩
            rw [hconf x (List.mem_of_getElem? hx), show k + 1 + i = k + (i + 1) by omega]; exact h

theorem handle_purge_repo (pd : String → Option Int) (srv : Server) (token name n : String) (u : String) :
    remoteRev (handle pd srv ⟨some ("Bearer " ++ token), .purge name⟩).2 n u = remoteRev srv n u := by
  unfold handle
  split
  · rfl
  · simp only [dispatch, runPurge]
    split
    · rfl
    · rename_i k b hb
      rcases getBackup_ok hb with ⟨rfl, hd⟩ | ⟨_, _, _, h⟩
      · unfold remoteRev
        show ((srv.dead.set name _).get? n).bind _ = _
        rw [Dict.get?_set]
        split
        · rename_i e; subst e; rw [hd]; rfl
        · rfl
      · cases h

theorem pushPurge_repo (pd : String → Option Int) (token name : String) (net : Net) (p : Push) (n u : String) :
    (pushPurge pd token name net p).s = p.s ∧ remoteRev (pushPurge pd token name net p).srv n u = remoteRev p.srv n u := by
  unfold pushPurge
  split
  · refine ⟨rfl, ?_⟩
    cases net
    · exact handle_purge_repo ..
    · rfl
    · exact handle_purge_repo ..
  · exact ⟨rfl, rfl⟩

/-- Whether the request at position `i` of a push of `r` is delivered to, and confirmed by, the origin. -/
example (net : Nat → Net) (i : Nat) (token name : String) (srv : Server) (r : Rev) :
    Confirmed (net i) token name srv r → Delivered (net i) token name srv r := fun h => ⟨by rw [h.1]; simp, h.2⟩

/-- **C50** What is pushed to a peer: the complete revisions of this peer whose tags differ from those last seen there. -/
theorem C50_what_is_pushed (peer : String) (s : Repo) (r : Rev) :
    r ∈ pendingFor peer s ↔
      r ∈ s.history ∧ r.stats.has "duration" = true ∧ r.server = peer ∧ peer ≠ "" ∧ r.tags ≠ r.origTags := by
  simp only [pendingFor, Repo.cleanHistory, Repo.getHistory, Rev.pending, Rev.clean, List.mem_filter, Bool.and_eq_true,
    decide_eq_true_eq]
  constructor
  · rintro ⟨⟨h1, h2⟩, ⟨h3, h4⟩, h5⟩
    simp at h2
    exact ⟨h1, h2, h5, h5 ▸ h3, h4⟩
  · rintro ⟨h1, h2, h3, h4, h5⟩
    exact ⟨⟨h1, by simp [h2]⟩, ⟨h3 ▸ h4, h5⟩, h3⟩

/-- **C50** Pushing the pending changes of a repository to one peer, where each request may get lost before or after the peer handles
it.  For each complete revision of that peer with changed tags:
* the peer's revision gets exactly the local tags - or is removed, if they are empty and it is the peer's own - if the request
  arrives and the peer accepts it, that is, if it still has the tags last seen there (`Accepts`); otherwise it is unchanged;
* if the success is confirmed, the revision is removed here as well if it has no tags, and otherwise its tags are no longer pending;
* otherwise it is unchanged here, hence still pending.
No other revision changes on either side, and the push reports an error if some change was not confirmed. -/
theorem C50_push (pd : String → Option Int) (peer token name : String) (net : Nat → Net) (s : Repo) (srv : Server)
    (hs : Verif.Repo.Sync s) (hg : Good name srv) (hid : ∀ r ∈ pendingFor peer s, PlainId r.uuid) :
    (∀ i r, (pendingFor peer s)[i]? = some r →
      (Delivered (net i) token name srv r → ∃ q, remoteRev srv name r.uuid = some q ∧ q.tags = r.origTags ∧
        remoteRev (push pd peer token name net s srv).srv name r.uuid =
          if r.tags = ∅ ∧ q.server = "" then none else some { q with tags := r.tags }) ∧
      (¬ Delivered (net i) token name srv r →
        remoteRev (push pd peer token name net s srv).srv name r.uuid = remoteRev srv name r.uuid) ∧
      (Confirmed (net i) token name srv r → onDisk (push pd peer token name net s srv).s.files r.uuid =
        if r.tags = ∅ then none else some { r with origTags := r.tags }) ∧
      (¬ Confirmed (net i) token name srv r → onDisk (push pd peer token name net s srv).s.files r.uuid = some r ∧ r.pending = true ∧
        (push pd peer token name net s srv).error = true)) ∧
    (∀ u, (∀ r ∈ s.history, r.uuid = u → r.clean = true → r.pending = true → r.server ≠ peer) →
      remoteRev (push pd peer token name net s srv).srv name u = remoteRev srv name u ∧
      onDisk (push pd peer token name net s srv).s.files u = onDisk s.files u) := by
  have hnodup : ((pendingFor peer s).map Rev.uuid).Nodup :=
    hs.nodup.sublist (List.Sublist.map _ (List.filter_sublist.trans List.filter_sublist))
  obtain ⟨_, _, c3, c4, c5, _⟩ := pushLoop_spec pd token name net (pendingFor peer s) 0 ⟨s, srv, false, false⟩ hg hid hnodup
  have hmem : ∀ r ∈ pendingFor peer s, r ∈ s.history ∧ r.clean = true ∧ r.pending = true ∧ r.server = peer := by
    intro r hr
    unfold pendingFor Repo.cleanHistory Repo.getHistory at hr
    simp only [List.mem_filter, Bool.and_eq_true, decide_eq_true_eq, Bool.not_true, Bool.false_or, Bool.not_false, Bool.true_or, and_true] at hr
    exact ⟨hr.1.1, hr.1.2, hr.2.1, hr.2.2⟩
  have e1 : (push pd peer token name net s srv).s = _ := (pushPurge_repo pd token name _ _ name "").1
  have e2 : ∀ u, remoteRev (push pd peer token name net s srv).srv name u = _ := fun u => (pushPurge_repo pd token name _ _ name u).2
  rw [e1]
  simp only [e2]
  refine ⟨?_, ?_⟩
  · intro i r hr
    obtain ⟨d1, d2, d3, d4⟩ := c4 i r hr
    rw [Nat.zero_add] at d1 d2 d3 d4
    refine ⟨?_, d2, d3, ?_⟩
    · intro hd
      obtain ⟨b, q, hb, _, hq, ht⟩ := hd.2.2
      have hrq : remoteRev srv name r.uuid = some q := by unfold remoteRev; rw [hb]; exact hq
      refine ⟨q, hrq, ht, ?_⟩
      have := d1 hd
      simp only [hrq, Option.bind_some] at this
      rw [this]; rfl
    · intro hc
      obtain ⟨m1, m2, m3, m4⟩ := hmem r (List.mem_of_getElem? hr)
      refine ⟨(d4 hc).trans ((hs.mem r).1 m1), m3, ?_⟩
      have he : (pushLoop pd token name net 0 (pendingFor peer s) ⟨s, srv, false, false⟩).error = true :=
        c5.2 (.inr ⟨i, r, hr, by rw [Nat.zero_add]; exact hc⟩)
      unfold push pushPurge
      split
      · simp only [he, Bool.true_or]
      · exact he
  · intro u hu
    exact c3 u (fun r hr hru => by
      obtain ⟨m1, m2, m3, m4⟩ := hmem r hr
      exact hu r m1 hru m2 m3 m4)

/-- **C50** If the removal of a revision is confirmed and the last request arrives, the repository at the origin is marked for
purging. -/
theorem C50_purge (pd : String → Option Int) (peer token name : String) (net : Nat → Net) (s : Repo) (srv : Server)
    (hs : Verif.Repo.Sync s) (hg : Good name srv) (hid : ∀ r ∈ pendingFor peer s, PlainId r.uuid)
    (i : Nat) (r : Rev) (hr : (pendingFor peer s)[i]? = some r) (hc : Confirmed (net i) token name srv r) (ht : r.tags = ∅)
    (hnet : net (pendingFor peer s).length ≠ .requestLost) :
    ∃ b, (push pd peer token name net s srv).srv.dead.get? name = some b ∧ b.purge = true := by
  have hnodup : ((pendingFor peer s).map Rev.uuid).Nodup :=
    hs.nodup.sublist (List.Sublist.map _ (List.filter_sublist.trans List.filter_sublist))
  obtain ⟨c1, c2, c3, c4, c5, c6⟩ := pushLoop_spec pd token name net (pendingFor peer s) 0 ⟨s, srv, false, false⟩ hg hid hnodup
  have hp := c6.2 (.inr ⟨i, r, hr, by rw [Nat.zero_add]; exact hc, ht⟩)
  unfold push pushPurge
  rw [if_pos hp]
  dsimp only
  obtain ⟨_, ⟨client, hcl, hne⟩, b, q, hb, _⟩ := hc
  generalize hsrv : (pushLoop pd token name net 0 (pendingFor peer s) ⟨s, srv, false, false⟩).srv = srv1 at *
  obtain ⟨b1, hb1⟩ : ∃ b1, srv1.dead.get? name = some b1 := by
    cases h : srv1.dead.get? name with
    | none => rw [c1.none.1 h] at hb; cases hb
    | some b1 => exact ⟨b1, rfl⟩
  have hh : (handle pd srv1 ⟨some ("Bearer " ++ token), .purge name⟩).2 = srv1.put .dead name { b1 with purge := true } := by
    unfold handle
    have ha : authenticate srv1.tokens ⟨some ("Bearer " ++ token), .purge name⟩ ≠ none := by
      rw [authenticate_iff]
      exact ⟨token, client, rfl, by rw [c1.tokens]; exact hcl, hne⟩
    cases hx : authenticate srv1.tokens ⟨some ("Bearer " ++ token), .purge name⟩ with
    | none => exact absurd hx ha
    | some c =>
    simp only [dispatch, runPurge, getBackup, hb1]
  have : (send pd (net (pendingFor peer s).length) ⟨some ("Bearer " ++ token), .purge name⟩ srv1).2 =
      srv1.put .dead name { b1 with purge := true } := by
    cases hn : net (pendingFor peer s).length with
    | ok => exact hh
    | requestLost => exact absurd hn hnet
    | responseLost => exact hh
  rw [this]
  exact ⟨{ b1 with purge := true }, Dict.get?_set_self _ _ _, rfl⟩

/-- **C50** A push reports an error exactly if a change was not confirmed, or a removal was confirmed and the request to purge was
not answered. -/
theorem C50_errors (pd : String → Option Int) (peer token name : String) (net : Nat → Net) (s : Repo) (srv : Server)
    (hs : Verif.Repo.Sync s) (hg : Good name srv) (hid : ∀ r ∈ pendingFor peer s, PlainId r.uuid) :
    (push pd peer token name net s srv).error = true ↔
      (∃ i r, (pendingFor peer s)[i]? = some r ∧ ¬ Confirmed (net i) token name srv r) ∨
      ((∃ i r, (pendingFor peer s)[i]? = some r ∧ Confirmed (net i) token name srv r ∧ r.tags = ∅) ∧
        net (pendingFor peer s).length ≠ .ok) := by
  have hnodup : ((pendingFor peer s).map Rev.uuid).Nodup :=
    hs.nodup.sublist (List.Sublist.map _ (List.filter_sublist.trans List.filter_sublist))
  obtain ⟨c1, c2, c3, c4, c5, c6⟩ := pushLoop_spec pd token name net (pendingFor peer s) 0 ⟨s, srv, false, false⟩ hg hid hnodup
  simp only [Nat.zero_add, Bool.false_eq_true, false_or] at c5 c6
  unfold push pushPurge
  generalize hq : pushLoop pd token name net 0 (pendingFor peer s) ⟨s, srv, false, false⟩ = q at *
  by_cases hp : q.purge = true
  · obtain ⟨i, r, hr, hc, ht⟩ := c6.1 hp
    rw [if_pos hp]
    dsimp only
    rw [Bool.or_eq_true, c5]
    refine or_congr Iff.rfl ?_
    have hc' := hc
    obtain ⟨_, ⟨client, hcl, hne⟩, b, _, hb, _⟩ := hc
    obtain ⟨b1, hb1⟩ : ∃ b1, q.srv.dead.get? name = some b1 := by
      cases h : q.srv.dead.get? name with
      | none => rw [c1.none.1 h] at hb; cases hb
      | some b1 => exact ⟨b1, rfl⟩
    have hh : (handle pd q.srv ⟨some ("Bearer " ++ token), .purge name⟩).1.code < 400 := by
      unfold handle
      have ha : authenticate q.srv.tokens ⟨some ("Bearer " ++ token), .purge name⟩ ≠ none := by
        rw [authenticate_iff]
        exact ⟨token, client, rfl, by rw [c1.tokens]; exact hcl, hne⟩
      cases hx : authenticate q.srv.tokens ⟨some ("Bearer " ++ token), .purge name⟩ with
      | none => exact absurd hx ha
      | some c =>
        simp only [dispatch, runPurge, getBackup, hb1]
        decide
    cases hn : net (pendingFor peer s).length with
    | ok => simp [send, succeeded, hh]
    | requestLost =>
      refine ⟨fun _ => ⟨⟨i, r, hr, hc', ht⟩, by simp⟩, fun _ => rfl⟩
    | responseLost =>
      refine ⟨fun _ => ⟨⟨i, r, hr, hc', ht⟩, by simp⟩, fun _ => rfl⟩
  · rw [if_neg hp, c5]
    refine ⟨.inl, ?_⟩
    rintro (h | ⟨h, _⟩)
    · exact h
    · exact absurd (c6.2 h) hp

/-- **C51 (partial)** A change stays pending across pushes that fail, whatever the failure. -/
theorem C51_failed_push_partial (pd : String → Option Int) (peer token name : String) (net : Nat → Net) (s : Repo) (srv : Server)
    (hs : Verif.Repo.Sync s) (hg : Good name srv) (hid : ∀ r ∈ pendingFor peer s, PlainId r.uuid) (i : Nat) (r : Rev)
    (hr : (pendingFor peer s)[i]? = some r)
    (hf : net i ≠ .ok ∨ srv.dead.get? name = none ∨ (∃ b, srv.dead.get? name = some b ∧ b.locked = true) ∨
      (∃ q, remoteRev srv name r.uuid = some q ∧ q.tags ≠ r.origTags)) :
    onDisk (push pd peer token name net s srv).s.files r.uuid = some r ∧ r.pending = true := by
  obtain ⟨h, _⟩ := C50_push pd peer token name net s srv hs hg hid
  obtain ⟨_, _, _, h4⟩ := h i r hr
  have hc : ¬ Confirmed (net i) token name srv r := by
    rintro ⟨h0, _, b, q, hb, hl, hq, ht⟩
    rcases hf with h | h | ⟨b', hb', hl'⟩ | ⟨q', hq', ht'⟩
    · exact h h0
    · rw [hb] at h; cases h
    · rw [hb] at hb'; cases hb'; rw [hl] at hl'; cases hl'
    · unfold remoteRev at hq'
      rw [hb] at hq'
      have hq' : onDisk b.repo.files r.uuid = some q' := hq'
      rw [hq] at hq'; cases hq'; exact ht' ht
  exact ⟨(h4 hc).1, (h4 hc).2.1⟩

/-! ### A concrete case: four changed revisions, of which one is accepted, one is removed, one has changed at the origin in the
meantime and for one the answer gets lost -/

/-- The origin. -/
def exOrigin : Server :=
  { tokens := [("secret", "us")]
    dead := [("vm", ⟨exRepo [exRev "aX" {"daily"} ∅ "", exRev "bX" {"daily"} ∅ "", exRev "cX" {"weekly"} ∅ "", exRev "dX" {"daily"} ∅ ""],
      false, false, 0, false⟩)]
    jobs := []
    reloads := 0 }

/-- The local repository. -/
def exLocal : Repo :=
  exRepo [exRev "aX" {"manual:keep"} {"daily"} "peer", exRev "bX" ∅ {"daily"} "peer", exRev "cX" ∅ {"daily"} "peer",
    exRev "dX" {"x"} {"daily"} "peer", exRev "eX" {"daily"} ∅ ""]

/-- The fourth answer is lost. -/
def exNet : Nat → Net := fun i => if i = 3 then .responseLost else .ok

theorem exLocal_meets : Verif.Repo.Sync exLocal.scan ∧ Good "vm" exOrigin ∧ (∀ r ∈ pendingFor "peer" exLocal.scan, PlainId r.uuid) ∧
    (pendingFor "peer" exLocal.scan).map Rev.uuid = ["dX", "cX", "bX", "aX"].reverse := by
  refine ⟨.scan (exRepo_named (by decide +kernel)), ⟨?_, ?_⟩, ?_, by decide +kernel⟩
  · intro n _; rfl
  · intro b hb
    have : b = ⟨exRepo [exRev "aX" {"daily"} ∅ "", exRev "bX" {"daily"} ∅ "", exRev "cX" {"weekly"} ∅ "", exRev "dX" {"daily"} ∅ ""],
      false, false, 0, false⟩ := by
      have : exOrigin.dead.get? "vm" = some ⟨exRepo [exRev "aX" {"daily"} ∅ "", exRev "bX" {"daily"} ∅ "", exRev "cX" {"weekly"} ∅ "", exRev "dX" {"daily"} ∅ ""],
        false, false, 0, false⟩ := rfl
      rw [hb] at this; exact Option.some.inj this
    subst this
    exact exRepo_named (by decide +kernel)
  · intro r hr
    have : r.uuid ∈ (pendingFor "peer" exLocal.scan).map Rev.uuid := List.mem_map_of_mem hr
    have e : (pendingFor "peer" exLocal.scan).map Rev.uuid = ["aX", "bX", "cX", "dX"] := by decide +kernel
    rw [e] at this
    simp only [List.mem_cons, List.not_mem_nil, or_false] at this
    rcases this with h | h | h | h <;> rw [h] <;> exact ⟨by decide, by decide, by decide, by decide⟩

example : (push (fun _ => none) "peer" "secret" "vm" exNet exLocal.scan exOrigin).s.files.keys = ["aX", "cX", "dX", "eX"] ∧
    (push (fun _ => none) "peer" "secret" "vm" exNet exLocal.scan exOrigin).error = true ∧
    remoteRev (push (fun _ => none) "peer" "secret" "vm" exNet exLocal.scan exOrigin).srv "vm" "aX" = some (exRev "aX" {"manual:keep"} ∅ "") ∧
    remoteRev (push (fun _ => none) "peer" "secret" "vm" exNet exLocal.scan exOrigin).srv "vm" "bX" = none ∧
    remoteRev (push (fun _ => none) "peer" "secret" "vm" exNet exLocal.scan exOrigin).srv "vm" "cX" = some (exRev "cX" {"weekly"} ∅ "") ∧
    remoteRev (push (fun _ => none) "peer" "secret" "vm" exNet exLocal.scan exOrigin).srv "vm" "dX" = some (exRev "dX" {"x"} ∅ "") := by
  decide +kernel

example := C50_push (fun _ => none) "peer" "secret" "vm" exNet exLocal.scan exOrigin exLocal_meets.1 exLocal_meets.2.1 exLocal_meets.2.2.1
example := C50_errors (fun _ => none) "peer" "secret" "vm" exNet exLocal.scan exOrigin exLocal_meets.1 exLocal_meets.2.1 exLocal_meets.2.2.1

/-- C50_purge: "bX" has no tags any more and the peer confirms it. -/
example := C50_purge (fun _ => none) "peer" "secret" "vm" exNet exLocal.scan exOrigin exLocal_meets.1 exLocal_meets.2.1 exLocal_meets.2.2.1
  1 (exRev "bX" ∅ {"daily"} "peer") (by decide +kernel)
  ⟨rfl, ⟨"us", rfl, by decide⟩, _, exRev "bX" {"daily"} ∅ "", rfl, rfl, by decide +kernel, rfl⟩ rfl (by decide +kernel)

/-- C51_failed_push_partial: the fourth answer is lost; the third revision has other tags at the peer. -/
example := C51_failed_push_partial (fun _ => none) "peer" "secret" "vm" exNet exLocal.scan exOrigin exLocal_meets.1 exLocal_meets.2.1
  exLocal_meets.2.2.1 3 (exRev "dX" {"x"} {"daily"} "peer") (by decide +kernel) (.inl (by decide))
example := C51_failed_push_partial (fun _ => none) "peer" "secret" "vm" exNet exLocal.scan exOrigin exLocal_meets.1 exLocal_meets.2.1
  exLocal_meets.2.2.1 2 (exRev "cX" ∅ {"daily"} "peer") (by decide +kernel)
  (.inr (.inr (.inr ⟨exRev "cX" {"weekly"} ∅ "", by decide +kernel, by decide +kernel⟩)))

end Verif.Sync
