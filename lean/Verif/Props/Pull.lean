import Verif.Model.Sync
import Verif.Props.Api
/-!
# C48: pulling mirrors the peer; C49: pulling never touches local revisions; C51: pending changes
-/
namespace Verif.Sync
open Verif Verif.Repo Verif.Api

theorem remove_force (s : Repo) (r : Rev) : s.remove r true = s.drop r := by
  unfold Repo.remove; rw [if_neg]; rintro ⟨h, _⟩; cases h

theorem Named.uuid {files : Dict String RevFile} (h : Named files) {u : String} {r : Rev} (hr : onDisk files u = some r) :
    r.uuid = u := by
  have := h.named u ⟨false, r⟩ (Dict.mem_of_get? (onDisk_eq_some.1 hr)) rfl
  exact this.symm

theorem foldl_drop (l : List Rev) : ∀ (s : Repo), Named s.files →
    Named (l.foldl (fun s r => s.remove r true) s).files ∧
    (l.foldl (fun s r => s.remove r true) s).history = s.history.filter (fun x => !(l.any (fun y => y.uuid = x.uuid))) ∧
    ∀ u, onDisk (l.foldl (fun s r => s.remove r true) s).files u =
      if l.any (fun y => y.uuid = u) then none else onDisk s.files u := by
  induction l with
  | nil => intro s h; exact ⟨h, by simp, by simp⟩
  | cons r l ih =>
    intro s h
    simp only [List.foldl_cons, remove_force] at ih ⊢
    obtain ⟨a, b, c⟩ := ih (s.drop r) (h.erase r.uuid)
    refine ⟨a, ?_, ?_⟩
    · rw [b]
      show List.filter _ (List.filter _ s.history) = _
      rw [List.filter_filter]
      apply List.filter_congr
      intro x _
      simp only [List.any_cons, Bool.not_or]
      by_cases hx : x.uuid = r.uuid
      · simp [hx]
      · simp [hx, Ne.symm hx]
    · intro u
      rw [c]
      show (if _ then none else onDisk (s.files.erase r.uuid) u) = _
      rw [onDisk_erase]
      simp only [List.any_cons, Bool.or_eq_true, decide_eq_true_eq]
      by_cases hu : u = r.uuid
      · simp [hu]
      · have : ¬ r.uuid = u := fun h => hu h.symm
        simp [hu, this]

/-- Memory and disk agree on the revisions of the given servers. -/
structure PeerSync (ps : List String) (s : Repo) : Prop where
  named : Named s.files
  nodup : (s.history.map Rev.uuid).Nodup
  mem : ∀ x, x.server ∈ ps → (x ∈ s.history ↔ onDisk s.files x.uuid = some x)

theorem eq_of_uuid' {l : List Rev} (h : (l.map Rev.uuid).Nodup) {x y : Rev} (hx : x ∈ l) (hy : y ∈ l) (hu : x.uuid = y.uuid) :
    x = y := List.inj_on_of_nodup_map h hx hy hu

theorem find?_uuid {l : List Rev} (h : (l.map Rev.uuid).Nodup) {x : Rev} (hx : x ∈ l) :
    l.find? (fun y => y.uuid = x.uuid) = some x := by
  cases hf : l.find? (fun y => y.uuid = x.uuid) with
  | none => rw [List.find?_eq_none] at hf; exact absurd (decide_eq_true rfl) (hf x hx)
  | some y =>
    have h1 := List.mem_of_find?_eq_some hf
    have h2 := List.find?_some hf
    simp only [decide_eq_true_eq] at h2
    rw [eq_of_uuid' h h1 hx h2]

theorem writeRemote_spec (same : Rev → Rev → Bool) (hsame : ∀ a b, same a b = true → a = b) (ids : List String) :
    ∀ (l : List Rev) (s : Repo), (l.map Rev.uuid).Nodup → (s.history.map Rev.uuid).Nodup → Named s.files →
    (∀ r ∈ l, r.uuid ∈ ids → ∃ x ∈ s.history, x.uuid = r.uuid ∧ onDisk s.files x.uuid = some x) →
    (writeRemote same ids l s).1 = .ok () ∧ (writeRemote same ids l s).2.history = s.history ∧
    Named (writeRemote same ids l s).2.files ∧
    ∀ u, onDisk (writeRemote same ids l s).2.files u = match l.find? (fun r => r.uuid = u) with
      | some r => some r
      | none => onDisk s.files u
  | [], s, _, _, hn, _ => ⟨rfl, rfl, hn, fun u => rfl⟩
  | r :: rest, s, hl, hh, hn, hx => by
    rw [List.map_cons, List.nodup_cons] at hl
    have write : writeRemote same ids (r :: rest) s = writeRemote same ids rest (s.writeInfo r) →
        (writeRemote same ids (r :: rest) s).1 = .ok () ∧ (writeRemote same ids (r :: rest) s).2.history = s.history ∧
        Named (writeRemote same ids (r :: rest) s).2.files ∧
        ∀ u, onDisk (writeRemote same ids (r :: rest) s).2.files u = match (r :: rest).find? (fun r => r.uuid = u) with
          | some r => some r
          | none => onDisk s.files u := by
      intro he
      rw [he]
      obtain ⟨a, b, c, d⟩ := writeRemote_spec same hsame ids rest (s.writeInfo r) hl.2 hh (hn.set r) (by
        intro r' hr' hi
        obtain ⟨x, h1, h2, h3⟩ := hx r' (by simp [hr']) hi
        refine ⟨x, h1, h2, ?_⟩
        show onDisk (s.files.set r.uuid ⟨false, r⟩) x.uuid = some x
        rw [onDisk_set, if_neg]
        · exact h3
        · intro hc
          exact hl.1 (by rw [← hc, h2]; exact List.mem_map.2 ⟨r', hr', rfl⟩))
      refine ⟨a, b, c, ?_⟩
      intro u
      rw [d u]
      by_cases hu : r.uuid = u
      · subst hu
        have hnone : rest.find? (fun x => x.uuid = r.uuid) = none := by
          rw [List.find?_eq_none]
          intro y hy
          simp only [decide_eq_true_eq]
          intro hc; exact hl.1 (by rw [← hc]; exact List.mem_map.2 ⟨y, hy, rfl⟩)
        rw [hnone]
        simp only [List.find?_cons, decide_true]
        show onDisk (s.files.set r.uuid ⟨false, r⟩) r.uuid = some r
        rw [onDisk_set, if_pos rfl]
      · have : (r :: rest).find? (fun x => decide (x.uuid = u)) = rest.find? (fun x => decide (x.uuid = u)) := by
          simp [List.find?_cons, hu]
        rw [this]
        cases rest.find? (fun x => decide (x.uuid = u)) with
        | some y => rfl
        | none =>
          show onDisk (s.files.set r.uuid ⟨false, r⟩) u = _
          rw [onDisk_set, if_neg (fun h => hu h.symm)]
    by_cases hi : r.uuid ∈ ids
    · obtain ⟨x, h1, h2, h3⟩ := hx r (by simp) hi
      have hf : s.history.find? (fun y => y.uuid = r.uuid) = some x := by rw [← h2]; exact find?_uuid hh h1
      by_cases hs : same r x = true
      · have he : writeRemote same ids (r :: rest) s = writeRemote same ids rest s := by
          simp only [writeRemote, if_pos hi, hf, if_pos hs]
        have hrx := hsame r x hs
        subst hrx
        rw [he]
        obtain ⟨a, b, c, d⟩ := writeRemote_spec same hsame ids rest s hl.2 hh hn (fun r' hr' => hx r' (by simp [hr']))
        refine ⟨a, b, c, ?_⟩
        intro u
        rw [d u]
        by_cases hu : r.uuid = u
        · subst hu
          have hnone : rest.find? (fun x => x.uuid = r.uuid) = none := by
            rw [List.find?_eq_none]
            intro y hy
            simp only [decide_eq_true_eq]
            intro hc; exact hl.1 (by rw [← hc]; exact List.mem_map.2 ⟨y, hy, rfl⟩)
          rw [hnone]
          simp only [List.find?_cons, decide_true]
          exact h3
        · have : (r :: rest).find? (fun x => decide (x.uuid = u)) = rest.find? (fun x => decide (x.uuid = u)) := by
            simp [List.find?_cons, hu]
          rw [this]
      · exact write (by simp only [writeRemote, if_pos hi, hf, if_neg hs])
    · exact write (by simp only [writeRemote, if_neg hi])

/-- The dictionaries of two revisions are equal only if the revisions are. -/
def SameSound (same : Rev → Rev → Bool) : Prop := ∀ a b, same a b = true → a = b

theorem pullSingle_spec {same : Rev → Rev → Bool} (hsame : SameSound same) {peer : String} {a : Answer} {s : Repo}
    {ps : List String} (hp : peer ∈ ps) (hs : PeerSync ps s) {L : List Rev} {err : Bool} (ha : a.revsAndError = some (L, err))
    (hL : (L.map Rev.uuid).Nodup) :
    (pullSingle same peer a s).1 = .ok err ∧ Named (pullSingle same peer a s).2.files ∧
    (pullSingle same peer a s).2.history =
      s.history.filter (fun x => !(decide (x.server = peer) && !(L.any (fun r => r.uuid = x.uuid)))) ∧
    ∀ u, onDisk (pullSingle same peer a s).2.files u = match L.find? (fun r => r.uuid = u) with
      | some r => some r
      | none => if s.history.any (fun x => decide (x.server = peer) && decide (x.uuid = u)) then none else onDisk s.files u := by
  obtain ⟨d1, d2, d3⟩ := foldl_drop
    (s.history.filter (fun r => decide (r.server = peer) && !(L.any (fun x => x.uuid = r.uuid)))) s hs.named
  have hd : dropUnknown peer L s = (s.history.filter (fun r => decide (r.server = peer) && !(L.any (fun x => x.uuid = r.uuid)))).foldl
    (fun s r => s.remove r true) s := rfl
  rw [← hd] at d1 d2 d3
  have hist : (dropUnknown peer L s).history =
      s.history.filter (fun x => !(decide (x.server = peer) && !(L.any (fun r => r.uuid = x.uuid)))) := by
    rw [d2]
    apply List.filter_congr
    intro x hx
    congr 1
    rw [Bool.eq_iff_iff, List.any_eq_true]
    constructor
    · rintro ⟨y, hy, hyx⟩
      simp only [decide_eq_true_eq] at hyx
      rw [List.mem_filter] at hy
      have := eq_of_uuid' hs.nodup hy.1 hx hyx
      subst this; exact hy.2
    · intro h
      exact ⟨x, List.mem_filter.2 ⟨hx, h⟩, by simp⟩
  obtain ⟨w1, w2, w3, w4⟩ := writeRemote_spec same hsame ((s.history.filter (fun r => decide (r.server = peer))).map Rev.uuid) L
    (dropUnknown peer L s) hL (by
      rw [hist]; exact hs.nodup.sublist (List.Sublist.map _ List.filter_sublist)) d1 (by
      intro r hr hi
      obtain ⟨x, hx, hxu⟩ := List.mem_map.1 hi
      rw [List.mem_filter] at hx
      have hxp : x.server = peer := by simpa using hx.2
      have hany : L.any (fun y => y.uuid = x.uuid) = true := by
        rw [List.any_eq_true]; exact ⟨r, hr, by simp [hxu]⟩
      refine ⟨x, ?_, hxu, ?_⟩
      · rw [hist, List.mem_filter]; exact ⟨hx.1, by rw [hany]; simp⟩
      · rw [d3, if_neg]
        · exact (hs.mem x (by rw [hxp]; exact hp)).1 hx.1
        · rw [List.any_eq_true]
          rintro ⟨y, hy, hyx⟩
          simp only [decide_eq_true_eq] at hyx
          rw [List.mem_filter] at hy
          have := eq_of_uuid' hs.nodup hy.1 hx.1 hyx
          subst this
          rw [hany] at hy; simp at hy)
  have he : pullSingle same peer a s = (.ok err, (writeRemote same ((s.history.filter (fun r => decide (r.server = peer))).map Rev.uuid) L
      (dropUnknown peer L s)).2) := by
    have har : a.raises = false := by cases a <;> first | rfl | cases ha
    unfold pullSingle
    rw [har, if_neg Bool.false_ne_true, ha]
    simp only []
    generalize hg : writeRemote same ((s.history.filter (fun r => decide (r.server = peer))).map Rev.uuid) L (dropUnknown peer L s) = g at *
    obtain ⟨g1, g2⟩ := g
    simp only at w1
    rw [w1]
  rw [he]
  refine ⟨rfl, w3, w2.trans hist, ?_⟩
  intro u
  rw [w4 u]
  cases hf : L.find? (fun r => decide (r.uuid = u)) with
  | some r => rfl
  | none =>
    simp only []
    rw [d3]
    have hnot : L.any (fun x => x.uuid = u) = false := by
      rw [List.find?_eq_none] at hf
      rw [← Bool.not_eq_true, List.any_eq_true]
      rintro ⟨y, hy, hyu⟩; exact hf y hy hyu
    congr 1
    rw [eq_iff_iff, List.any_eq_true, List.any_eq_true]
    constructor
    · rintro ⟨y, hy, hyu⟩
      rw [List.mem_filter] at hy
      simp only [Bool.and_eq_true] at hy
      exact ⟨y, hy.1, by rw [Bool.and_eq_true]; exact ⟨hy.2.1, hyu⟩⟩
    · rintro ⟨y, hy, hyu⟩
      rw [Bool.and_eq_true] at hyu
      refine ⟨y, List.mem_filter.2 ⟨hy, ?_⟩, hyu.2⟩
      have : y.uuid = u := by simpa using hyu.2
      rw [this, hnot, hyu.1]; rfl

/-- What a peer says it has: its revisions, or nothing if it does not know the repository or must not tell. -/
def Reports (a : Answer) (L : List Rev) : Prop := a = .revs L ∨ ((a = .status 404 ∨ a = .status 403) ∧ L = [])

/-- Ids are unique: the answers are about revisions of the peer, each reported once, and no id is in use for a revision of
another server, here or in another answer. -/
structure UniqueIds (answers : List (String × Answer)) (s : Repo) : Prop where
  peers : (answers.map Prod.fst).Nodup
  named : "" ∉ answers.map Prod.fst
  own : ∀ p L, (p, Answer.revs L) ∈ answers → (L.map Rev.uuid).Nodup ∧ ∀ r ∈ L, r.server = p
  here : ∀ p L, (p, Answer.revs L) ∈ answers → ∀ r ∈ L, ∀ x, onDisk s.files r.uuid = some x → x.server = p
  across : ∀ p L p' L', (p, Answer.revs L) ∈ answers → (p', Answer.revs L') ∈ answers →
    ∀ r ∈ L, ∀ r' ∈ L', r.uuid = r'.uuid → p = p'

theorem Reports.revs {a : Answer} {L : List Rev} (h : Reports a L) : a.revsAndError = some (L, false) := by
  rcases h with rfl | ⟨rfl | rfl, rfl⟩ <;> rfl

theorem reports_iff (a : Answer) : (∃ L, a.revsAndError = some (L, false)) ↔ ∃ L, Reports a L := by
  constructor
  · rintro ⟨L, h⟩
    cases a with
    | revs l => cases h; exact ⟨_, .inl rfl⟩
    | status c =>
      simp only [Answer.revsAndError, Option.some.injEq, Prod.mk.injEq, Bool.not_eq_false', Bool.or_eq_true,
        decide_eq_true_eq] at h
      rcases h.2 with rfl | rfl
      · exact ⟨[], .inr ⟨.inl rfl, rfl⟩⟩
      · exact ⟨[], .inr ⟨.inr rfl, rfl⟩⟩
    | connection => cases h
    | client => cases h
    | raised => cases h
  · rintro ⟨L, h⟩; exact ⟨L, h.revs⟩

/-- Membership in what the peers report. -/
theorem pullPeers_spec {same : Rev → Rev → Bool} (hsame : SameSound same) : ∀ (answers : List (String × Answer)) (s : Repo),
    PeerSync (answers.map Prod.fst) s → UniqueIds answers s →
    (∀ p a, (p, a) ∈ answers → ∃ L, Reports a L) →
    (pullPeers same answers s).1 = .ok 0 ∧ Named (pullPeers same answers s).2.files ∧
    ∀ r, onDisk (pullPeers same answers s).2.files r.uuid = some r ↔
      (∃ a L, (r.server, a) ∈ answers ∧ Reports a L ∧ r ∈ L) ∨ (r.server ∉ answers.map Prod.fst ∧ onDisk s.files r.uuid = some r)
  | [], s, hs, hu, _ => by
    refine ⟨rfl, hs.named, ?_⟩
    intro r
    simp [pullPeers]
  | (p, a) :: rest, s, hs, hu, hr => by
    obtain ⟨L, hL⟩ := hr p a (by simp)
    have hLn : (L.map Rev.uuid).Nodup ∧ ∀ r ∈ L, r.server = p := by
      rcases hL with rfl | ⟨_, rfl⟩
      · exact hu.own p L (by simp)
      · simp
    have hLhere : ∀ r ∈ L, ∀ x, onDisk s.files r.uuid = some x → x.server = p := by
      rcases hL with rfl | ⟨_, rfl⟩
      · exact hu.here p L (by simp)
      · simp
    have hLacross : ∀ p' L', (p', Answer.revs L') ∈ rest → ∀ r ∈ L, ∀ r' ∈ L', r.uuid = r'.uuid → p = p' := by
      rcases hL with rfl | ⟨_, rfl⟩
      · intro p' L' hm; exact hu.across p L p' L' (by simp) (by simp [hm])
      · simp
    obtain ⟨s1, s2, s3, s4⟩ := pullSingle_spec hsame (List.mem_cons_self) hs hL.revs hLn.1 (peer := p) (ps := p :: rest.map Prod.fst)
    have hpr : p ∉ rest.map Prod.fst := (List.nodup_cons.1 hu.peers).1
    -- the state after the first peer
    have step : ∀ r, onDisk (pullSingle same p a s).2.files r.uuid = some r ↔
        r ∈ L ∨ (r.server ≠ p ∧ onDisk s.files r.uuid = some r) := by
      intro r
      rw [s4]
      cases hf : L.find? (fun x => decide (x.uuid = r.uuid)) with
      | some x =>
        have hx := List.mem_of_find?_eq_some hf
        have hxu := List.find?_some hf
        simp only [decide_eq_true_eq] at hxu
        simp only [Option.some.injEq]
        constructor
        · rintro rfl; exact .inl hx
        · rintro (h | ⟨h1, h2⟩)
          · exact eq_of_uuid' hLn.1 hx h hxu
          · exact absurd (hLhere x hx r (by rw [hxu]; exact h2)) h1
      | none =>
        simp only []
        have hnL : r ∉ L := by
          rw [List.find?_eq_none] at hf
          intro h; exact absurd (decide_eq_true rfl) (hf r h)
        by_cases hk : s.history.any (fun x => decide (x.server = p) && decide (x.uuid = r.uuid)) = true
        · rw [if_pos hk]
          obtain ⟨x, hx, hxx⟩ := List.any_eq_true.1 hk
          simp only [Bool.and_eq_true, decide_eq_true_eq] at hxx
          constructor
          · intro h; cases h
          · rintro (h | ⟨h1, h2⟩)
            · exact absurd h hnL
            · have := (hs.mem x (by rw [hxx.1]; simp)).1 hx
              rw [hxx.2, h2] at this
              cases this; exact absurd hxx.1 h1
        · rw [if_neg hk]
          constructor
          · intro h
            refine .inr ⟨?_, h⟩
            rintro rfl
            have hmem := (hs.mem r (by simp)).2 h
            exact hk (List.any_eq_true.2 ⟨r, hmem, by simp⟩)
          · rintro (h | ⟨_, h⟩)
            · exact absurd h hnL
            · exact h
    have hs' : PeerSync (rest.map Prod.fst) (pullSingle same p a s).2 := by
      refine ⟨s2, ?_, ?_⟩
      · rw [s3]; exact hs.nodup.sublist (List.Sublist.map _ List.filter_sublist)
      · intro x hx
        have hxp : x.server ≠ p := by rintro rfl; exact hpr hx
        rw [step, s3, List.mem_filter]
        constructor
        · rintro ⟨h, _⟩; exact .inr ⟨hxp, (hs.mem x (by simp; exact .inr (by simpa using hx))).1 h⟩
        · rintro (h | ⟨_, h⟩)
          · exact absurd (hLn.2 x h) hxp
          · exact ⟨(hs.mem x (by simp; exact .inr (by simpa using hx))).2 h, by simp [hxp]⟩
    have hu' : UniqueIds rest (pullSingle same p a s).2 := by
      refine ⟨(List.nodup_cons.1 hu.peers).2, fun h => hu.named (by simp at h ⊢; exact .inr h),
        fun p' L' h => hu.own p' L' (by simp [h]), ?_, fun p' L' p'' L'' h h' => hu.across p' L' p'' L'' (by simp [h]) (by simp [h'])⟩
      intro p' L' hm r hr x hx
      have hxu : x.uuid = r.uuid := Named.uuid s2 hx
      rw [← hxu] at hx
      rcases (step x).1 hx with h | ⟨_, h⟩
      · have := hLacross p' L' hm x h r hr hxu
        subst this
        exact hLn.2 x h
      · exact hu.here p' L' (by simp [hm]) r hr x (by rw [← hxu]; exact h)
    obtain ⟨i1, i2, i3⟩ := pullPeers_spec hsame rest (pullSingle same p a s).2 hs' hu' (fun p' a' h => hr p' a' (by simp [h]))
    have he : pullPeers same ((p, a) :: rest) s = (.ok 0, (pullPeers same rest (pullSingle same p a s).2).2) := by
      simp only [pullPeers]
      generalize hg : pullSingle same p a s = g at *
      obtain ⟨g1, g2⟩ := g
      simp only at s1 i1
      subst s1
      simp only []
      generalize hg' : pullPeers same rest g2 = g' at *
      obtain ⟨g1', g2'⟩ := g'
      simp only at i1
      subst i1
      rfl
    rw [he]
    refine ⟨rfl, i2, ?_⟩
    intro r
    rw [i3, step]
    constructor
    · rintro (⟨a', L', h1, h2, h3⟩ | ⟨h1, h2 | ⟨h2, h3⟩⟩)
      · exact .inl ⟨a', L', by simp [h1], h2, h3⟩
      · exact .inl ⟨a, L, by rw [hLn.2 r h2]; simp, hL, h2⟩
      · refine .inr ⟨?_, h3⟩
        simp only [List.map_cons, List.mem_cons, not_or]
        exact ⟨h2, h1⟩
    · rintro (⟨a', L', h1, h2, h3⟩ | ⟨h1, h2⟩)
      · rcases List.mem_cons.1 h1 with h | h
        · have hrp : r.server = p := (Prod.mk.inj h).1
          have haa : a' = a := (Prod.mk.inj h).2
          have hLL : L' = L := by
            rw [haa] at h2
            have k1 := h2.revs; have k2 := hL.revs
            rw [k1] at k2; cases k2; rfl
          subst hLL
          exact .inr ⟨by rw [hrp]; exact hpr, .inl h3⟩
        · exact .inl ⟨a', L', h, h2, h3⟩
      · simp only [List.map_cons, List.mem_cons, not_or] at h1
        exact .inr ⟨h1.2, .inr ⟨h1.1, h2⟩⟩

theorem removeDeadPeers_spec (peers : List String) (s : Repo) (hs : Verif.Repo.Sync s) :
    Verif.Repo.Sync (removeDeadPeers peers s) ∧
    ∀ r, onDisk (removeDeadPeers peers s).files r.uuid = some r ↔
      onDisk s.files r.uuid = some r ∧ (r.server = "" ∨ r.server ∈ peers) := by
  obtain ⟨d1, d2, d3⟩ := foldl_drop (s.history.filter (fun r => decide (r.server ≠ "") && !(peers.contains r.server))) s hs.named
  have key : ∀ r, onDisk (removeDeadPeers peers s).files r.uuid = some r ↔
      onDisk s.files r.uuid = some r ∧ (r.server = "" ∨ r.server ∈ peers) := by
    intro r
    unfold removeDeadPeers
    rw [d3]
    by_cases hk : List.any (s.history.filter (fun r => decide (r.server ≠ "") && !(peers.contains r.server))) (fun y => y.uuid = r.uuid) = true
    · rw [if_pos hk]
      obtain ⟨x, hx, hxx⟩ := List.any_eq_true.1 hk
      rw [List.mem_filter] at hx
      simp only [decide_eq_true_eq] at hxx
      constructor
      · intro h; cases h
      · rintro ⟨h1, h2⟩
        have := (hs.mem x).1 hx.1
        rw [hxx, h1] at this
        cases this
        simp only [ne_eq, decide_not, Bool.and_eq_true, Bool.not_eq_true', decide_eq_false_iff_not, List.contains_eq_mem] at hx
        rcases h2 with h2 | h2
        · exact absurd h2 hx.2.1
        · exact absurd h2 hx.2.2
    · rw [if_neg hk]
      constructor
      · intro h
        refine ⟨h, ?_⟩
        by_contra hc
        rw [not_or] at hc
        apply hk
        rw [List.any_eq_true]
        exact ⟨r, List.mem_filter.2 ⟨(hs.mem r).2 h, by simp [hc.1, hc.2]⟩, by simp⟩
      · exact fun h => h.1
  refine ⟨⟨d1, ?_, ?_⟩, key⟩
  · show ((removeDeadPeers peers s).history.map Rev.uuid).Nodup
    unfold removeDeadPeers
    rw [d2]; exact hs.nodup.sublist (List.Sublist.map _ List.filter_sublist)
  · intro r
    rw [key]
    unfold removeDeadPeers
    rw [d2, List.mem_filter]
    constructor
    · rintro ⟨h1, h2⟩
      refine ⟨(hs.mem r).1 h1, ?_⟩
      by_contra hc
      rw [not_or] at hc
      rw [Bool.not_eq_true', ← Bool.not_eq_true, List.any_eq_true] at h2
      exact h2 ⟨r, List.mem_filter.2 ⟨h1, by simp [hc.1, hc.2]⟩, by simp⟩
    · rintro ⟨h1, h2⟩
      refine ⟨(hs.mem r).2 h1, ?_⟩
      rw [Bool.not_eq_true', ← Bool.not_eq_true, List.any_eq_true]
      rintro ⟨y, hy, hyu⟩
      rw [List.mem_filter] at hy
      simp only [decide_eq_true_eq] at hyu
      have := eq_of_uuid' hs.nodup hy.1 ((hs.mem r).2 h1) hyu
      subst this
      simp only [ne_eq, decide_not, Bool.and_eq_true, Bool.not_eq_true', decide_eq_false_iff_not, List.contains_eq_mem] at hy
      rcases h2 with h2 | h2
      · exact hy.2.1 h2
      · exact hy.2.2 h2

theorem pull_spec {same : Rev → Rev → Bool} (hsame : SameSound same) (answers : List (String × Answer)) (s : Repo)
    (hs : Verif.Repo.Sync s) (hu : UniqueIds answers s) (hr : ∀ p a, (p, a) ∈ answers → ∃ L, Reports a L) :
    (pull same answers s).1 = .ok 0 ∧ Named (pull same answers s).2.files ∧
    ∀ r, onDisk (pull same answers s).2.files r.uuid = some r ↔
      (∃ a L, (r.server, a) ∈ answers ∧ Reports a L ∧ r ∈ L) ∨ (r.server = "" ∧ onDisk s.files r.uuid = some r) := by
  obtain ⟨d1, d2⟩ := removeDeadPeers_spec (answers.map Prod.fst) s hs
  obtain ⟨p1, p2, p3⟩ := pullPeers_spec hsame answers (removeDeadPeers (answers.map Prod.fst) s)
    ⟨d1.named, d1.nodup, fun x _ => d1.mem x⟩
    ⟨hu.peers, hu.named, hu.own, fun p L hm r hrL x hx => by
      have hxu := Named.uuid d1.named hx
      rw [← hxu] at hx
      exact hu.here p L hm r hrL x (by rw [← hxu]; exact ((d2 x).1 hx).1), hu.across⟩ hr
  refine ⟨p1, p2, ?_⟩
  intro r
  show onDisk (pullPeers same answers _).2.files r.uuid = some r ↔ _
  rw [p3, d2]
  constructor
  · rintro (h | ⟨h1, h2, h3 | h3⟩)
    · exact .inl h
    · exact .inr ⟨h3, h2⟩
    · exact absurd h3 h1
  · rintro (h | ⟨h1, h2⟩)
    · exact .inl h
    · exact .inr ⟨by rw [h1]; exact hu.named, h2, .inl h1⟩

/-- **C48** A pull in which every peer answers (with its revisions, or that it does not have the repository), with the
directory read before: it succeeds; afterwards the metadata files are exactly those of the local revisions, unchanged, and
those of the revisions that the peers reported; revisions of servers that are not configured are gone. -/
theorem C48_mirror (same : Rev → Rev → Bool) (hsame : SameSound same) (answers : List (String × Answer)) (s : Repo)
    (hn : Named s.files) (hu : UniqueIds answers s) (hr : ∀ p a, (p, a) ∈ answers → ∃ L, Reports a L) :
    (pull same answers s.scan).1 = .ok 0 ∧
    ∀ u r, onDisk (pull same answers s.scan).2.files u = some r ↔
      r.uuid = u ∧ ((∃ a L, (r.server, a) ∈ answers ∧ Reports a L ∧ r ∈ L) ∨ (r.server = "" ∧ onDisk s.files u = some r)) := by
  obtain ⟨h1, h2, h3⟩ := pull_spec hsame answers s.scan (Sync.scan hn) ⟨hu.peers, hu.named, hu.own, hu.here, hu.across⟩ hr
  refine ⟨h1, ?_⟩
  intro u r
  constructor
  · intro h
    have hru := Named.uuid h2 h
    subst hru
    exact ⟨rfl, (h3 r).1 h⟩
  · rintro ⟨rfl, h⟩; exact (h3 r).2 h

theorem onDisk_ext {f g : Dict String RevFile} (h : ∀ u r, onDisk f u = some r ↔ onDisk g u = some r) (u : String) :
    onDisk f u = onDisk g u := Option.ext (fun r => h u r)

theorem pullSingle_error {same : Rev → Rev → Bool} {peer : String} {a : Answer} {s s' : Repo} {b : Bool}
    (h : pullSingle same peer a s = (.ok b, s')) : b = false ↔ ∃ L, Reports a L := by
  rw [← reports_iff]
  unfold pullSingle at h
  split at h
  · cases h
  cases hr : a.revsAndError with
  | none => rw [hr] at h; cases h; simp
  | some x =>
    obtain ⟨remote, err⟩ := x
    rw [hr] at h
    dsimp only at h
    split at h
    · cases h
    · cases h; simp

theorem pullPeers_errors {same : Rev → Rev → Bool} : ∀ (answers : List (String × Answer)) (s s' : Repo) (n : Nat),
    pullPeers same answers s = (.ok n, s') → (n = 0 ↔ ∀ p a, (p, a) ∈ answers → ∃ L, Reports a L)
  | [], s, s', n, h => by cases h; simp
  | (p, a) :: rest, s, s', n, h => by
    unfold pullPeers at h
    split at h
    · cases h
    · rename_i b s1 h1
      split at h
      · cases h
      · rename_i m s2 h2
        cases h
        have e1 := pullSingle_error h1
        have e2 := pullPeers_errors rest _ _ _ h2
        constructor
        · intro h0 p' a' hm
          rcases List.mem_cons.1 hm with hm | hm
          · cases hm; exact e1.1 (by cases b with
              | false => rfl
              | true => simp at h0)
          · exact e2.1 (by omega) p' a' hm
        · intro hall
          have hb := e1.2 (hall p a (by simp))
          have hm := e2.2 (fun p' a' hm => hall p' a' (by simp [hm]))
          simp [hb, hm]

/-- **C48** Errors are counted: a pull that ends reports no error exactly if every peer has told what it has. -/
theorem C48_errors_counted (same : Rev → Rev → Bool) (answers : List (String × Answer)) (s s' : Repo) (n : Nat)
    (h : pull same answers s = (.ok n, s')) : n = 0 ↔ ∀ p a, (p, a) ∈ answers → ∃ L, Reports a L :=
  pullPeers_errors answers _ _ _ h

/-- **C48** Pulling the same answers again changes no metadata. -/
theorem C48_idempotent (same same' : Rev → Rev → Bool) (hsame : SameSound same) (hsame' : SameSound same')
    (answers : List (String × Answer)) (s : Repo)
    (hn : Named s.files) (hu : UniqueIds answers s) (hr : ∀ p a, (p, a) ∈ answers → ∃ L, Reports a L) (u : String) :
    onDisk (pull same' answers (pull same answers s.scan).2.scan).2.files u = onDisk (pull same answers s.scan).2.files u := by
  have hs := Sync.scan hn
  obtain ⟨_, n1, _⟩ := pull_spec hsame answers s.scan hs ⟨hu.peers, hu.named, hu.own, hu.here, hu.across⟩ hr
  obtain ⟨_, h1⟩ := C48_mirror same hsame answers s hn hu hr
  have hu2 : UniqueIds answers (pull same answers s.scan).2 := by
    refine ⟨hu.peers, hu.named, hu.own, ?_, hu.across⟩
    intro p L hm r hrL x hx
    obtain ⟨hxu, hx⟩ := (h1 _ x).1 hx
    rcases hx with ⟨a, L', k1, k2, k3⟩ | ⟨_, k2⟩
    · rcases k2 with rfl | ⟨_, rfl⟩
      · have hxs := (hu.own _ L' k1).2 x k3
        exact hu.across _ L' p L k1 hm x k3 r hrL hxu
      · cases k3
    · exact hu.here p L hm r hrL x k2
  obtain ⟨_, h2⟩ := C48_mirror same' hsame' answers (pull same answers s.scan).2 n1 hu2 hr
  apply onDisk_ext
  intro u r
  rw [h2, h1]
  constructor
  · rintro ⟨rfl, h | ⟨h, k⟩⟩
    · exact ⟨rfl, .inl h⟩
    · exact ⟨rfl, k.2⟩
  · rintro ⟨rfl, h | ⟨h, k⟩⟩
    · exact ⟨rfl, .inl h⟩
    · exact ⟨rfl, .inr ⟨h, rfl, .inr ⟨h, k⟩⟩⟩

/-! ## What the peer answers -/

/-- A peer answers with exactly its complete local revisions, if it accepts the token and knows the repository. -/
theorem fetch_revs (pd : String → Option Int) (peer token name : String) (srv : Server) (b : Backup) (client : String)
    (ht : srv.tokens.get? token = some client) (hc : client ≠ "")
    (hb : srv.dead.get? name = some b ∨ (srv.dead.get? name = none ∧ srv.jobs.get? name = some b)) (hn : Named b.repo.files) :
    ∃ L, (fetch pd peer token name srv).1 = .revs L ∧ (L.map Rev.uuid).Nodup ∧
      ∀ r, r ∈ L ↔ ∃ q, onDisk b.repo.files q.uuid = some q ∧ q.server = "" ∧ q.stats.has "duration" = true ∧
        r = { q with origTags := q.tags, server := peer } := by
  have hauth : ∀ srv' : Server, srv'.tokens = srv.tokens → ∀ route, handle pd srv' ⟨some ("Bearer " ++ token), route⟩ =
      dispatch pd srv' route := by
    intro srv' he route
    unfold handle
    have : authenticate srv'.tokens ⟨some ("Bearer " ++ token), route⟩ ≠ none := by
      rw [authenticate_iff]
      exact ⟨token, client, rfl, by rw [he]; exact ht, hc⟩
    cases hx : authenticate srv'.tokens ⟨some ("Bearer " ++ token), route⟩ with
    | none => exact absurd hx this
    | some c => rfl
  have hg : ∃ k, getBackup srv name true = .ok (k, b) := by
    rcases hb with h | ⟨h1, h2⟩
    · exact ⟨.dead, by simp [getBackup, h]⟩
    · exact ⟨.active, by simp [getBackup, h1, h2]⟩
  obtain ⟨k, hg⟩ := hg
  have h1 : handle pd srv ⟨some ("Bearer " ++ token), .touch name⟩ =
      (⟨204, []⟩, srv.put k name { b with touched := b.touched + 1 }) := by
    rw [hauth srv rfl]
    simp only [dispatch, touchBackup, hg]
  have htok : (srv.put k name { b with touched := b.touched + 1 }).tokens = srv.tokens := by cases k <;> rfl
  have hg2 : getBackup (srv.put k name { b with touched := b.touched + 1 }) name true =
      .ok (k, { b with touched := b.touched + 1 }) := by
    rcases getBackup_ok hg with ⟨rfl, h⟩ | ⟨rfl, h, hd, _⟩
    · simp [getBackup, Server.put]
    · simp [getBackup, Server.put, hd]
  have h2 := hauth (srv.put k name { b with touched := b.touched + 1 }) htok (.revs name true)
  simp only [dispatch, getRevs, hg2] at h2
  refine ⟨(b.repo.scan.getHistory true true).map (adopt peer), ?_, ?_, ?_⟩
  · unfold fetch
    rw [h1]
    dsimp only
    rw [h2]
    simp
  · rw [List.map_map]
    have : (Rev.uuid ∘ adopt peer) = Rev.uuid := rfl
    rw [this]
    exact b.repo.scan_nodup.sublist (List.Sublist.map _ List.filter_sublist)
  · intro r
    simp only [List.mem_map, Repo.getHistory, List.mem_filter, Repo.scan_mem hn, Rev.clean, Rev.isLocal]
    constructor
    · rintro ⟨q, ⟨h1, h2⟩, rfl⟩
      simp at h2
      exact ⟨q, h1, h2.2, h2.1, rfl⟩
    · rintro ⟨q, h1, h2, h3, rfl⟩
      exact ⟨q, ⟨h1, by simp [h2, h3]⟩, rfl⟩

/-- **C48** Pulling from a peer: afterwards the revisions known here for the peer are exactly the complete revisions stored on
it, with their times, tags, trust and statistics. -/
theorem C48_mirrors_peer (same : Rev → Rev → Bool) (hsame : SameSound same) (pd : String → Option Int) (peer token name : String)
    (srv : Server) (b : Backup) (client : String) (ht : srv.tokens.get? token = some client) (hc : client ≠ "")
    (hb : srv.dead.get? name = some b ∨ (srv.dead.get? name = none ∧ srv.jobs.get? name = some b)) (hnb : Named b.repo.files)
    (s : Repo) (hn : Named s.files) (hp : peer ≠ "")
    (hids : ∀ u q x, onDisk b.repo.files u = some q → q.server = "" → onDisk s.files u = some x → x.server = peer) :
    (pull same [(peer, (fetch pd peer token name srv).1)] s.scan).1 = .ok 0 ∧
    ∀ u r, (onDisk (pull same [(peer, (fetch pd peer token name srv).1)] s.scan).2.files u = some r ∧ r.server = peer) ↔
      ∃ q, onDisk b.repo.files u = some q ∧ q.server = "" ∧ q.stats.has "duration" = true ∧
        r = { q with origTags := q.tags, server := peer } := by
  obtain ⟨L, hL, hLn, hLm⟩ := fetch_revs pd peer token name srv b client ht hc hb hnb
  rw [hL]
  have hu : UniqueIds [(peer, Answer.revs L)] s := by
    refine ⟨by simp, by simp [Ne.symm hp], ?_, ?_, ?_⟩
    · intro p L' hm
      simp only [List.mem_singleton, Prod.mk.injEq, Answer.revs.injEq] at hm
      obtain ⟨rfl, rfl⟩ := hm
      refine ⟨hLn, ?_⟩
      intro r hr
      obtain ⟨q, _, _, _, rfl⟩ := (hLm r).1 hr
      rfl
    · intro p L' hm r hr x hx
      simp only [List.mem_singleton, Prod.mk.injEq, Answer.revs.injEq] at hm
      obtain ⟨rfl, rfl⟩ := hm
      obtain ⟨q, h1, h2, _, rfl⟩ := (hLm r).1 hr
      exact hids q.uuid q x h1 h2 hx
    · intro p L' p' L'' hm hm' _ _ _ _ _
      simp only [List.mem_singleton, Prod.mk.injEq] at hm hm'
      rw [hm.1, hm'.1]
  obtain ⟨h1, h2⟩ := C48_mirror same hsame [(peer, .revs L)] s hn hu (by
    intro p a hm
    simp only [List.mem_singleton, Prod.mk.injEq] at hm
    obtain ⟨rfl, rfl⟩ := hm
    exact ⟨L, .inl rfl⟩)
  refine ⟨h1, ?_⟩
  intro u r
  rw [h2]
  constructor
  · rintro ⟨⟨rfl, ⟨a, L', k1, k2, k3⟩ | ⟨k1, k2⟩⟩, hs⟩
    · simp only [List.mem_singleton, Prod.mk.injEq] at k1
      obtain ⟨_, rfl⟩ := k1
      rcases k2 with k2 | ⟨k2 | k2, _⟩
      · cases k2
        obtain ⟨q, q1, q2, q3, rfl⟩ := (hLm r).1 k3
        exact ⟨q, q1, q2, q3, rfl⟩
      · cases k2
      · cases k2
    · exact absurd (hs.symm.trans k1) hp
  · rintro ⟨q, q1, q2, q3, rfl⟩
    have hqu : q.uuid = u := Named.uuid hnb q1
    refine ⟨⟨hqu, .inl ⟨.revs L, L, by simp, .inl rfl, ?_⟩⟩, rfl⟩
    exact (hLm _).2 ⟨q, by rw [hqu]; exact q1, q2, q3, rfl⟩

/-! ## C49 -/

theorem foldl_drop_keeps {l : List Rev} {s : Repo} (hn : Named s.files) {u : String} (h : ∀ r ∈ l, r.uuid ≠ u) :
    onDisk (l.foldl (fun s r => s.remove r true) s).files u = onDisk s.files u := by
  obtain ⟨_, _, h3⟩ := foldl_drop l s hn
  rw [h3, if_neg]
  rw [List.any_eq_true]
  rintro ⟨y, hy, hyu⟩
  exact h y hy (by simpa using hyu)

theorem writeRemote_keeps (same : Rev → Rev → Bool) (ids : List String) (u : String) : ∀ (l : List Rev) (s : Repo),
    (∀ r ∈ l, r.uuid ≠ u) → onDisk (writeRemote same ids l s).2.files u = onDisk s.files u ∧
      (writeRemote same ids l s).2.history = s.history ∧ (Named s.files → Named (writeRemote same ids l s).2.files)
  | [], s, _ => ⟨rfl, rfl, id⟩
  | r :: rest, s, h => by
    have hr := h r (by simp)
    have hrest : ∀ x ∈ rest, x.uuid ≠ u := fun x hx => h x (by simp [hx])
    have hw : onDisk (s.writeInfo r).files u = onDisk s.files u := by
      show onDisk (s.files.set r.uuid ⟨false, r⟩) u = _
      rw [onDisk_set, if_neg (Ne.symm hr)]
    obtain ⟨a1, a2, a3⟩ := writeRemote_keeps same ids u rest s hrest
    obtain ⟨b1, b2, b3⟩ := writeRemote_keeps same ids u rest (s.writeInfo r) hrest
    have b3' : Named s.files → Named (writeRemote same ids rest (s.writeInfo r)).2.files := fun hn => b3 (hn.set r)
    simp only [writeRemote]
    split
    · split
      · exact ⟨rfl, rfl, id⟩
      · split
        · exact ⟨a1, a2, a3⟩
        · exact ⟨b1.trans hw, b2, b3'⟩
    · exact ⟨b1.trans hw, b2, b3'⟩

theorem pullSingle_keeps (same : Rev → Rev → Bool) (peer : String) (a : Answer) (s : Repo) (u : String) (hn : Named s.files)
    (hmem : ∀ x ∈ s.history, x.uuid = u → x.server ≠ peer) (ha : ∀ L, a = .revs L → ∀ r ∈ L, r.uuid ≠ u) :
    onDisk (pullSingle same peer a s).2.files u = onDisk s.files u ∧ Named (pullSingle same peer a s).2.files ∧
    ∀ x ∈ (pullSingle same peer a s).2.history, x ∈ s.history := by
  unfold pullSingle
  split
  · exact ⟨rfl, hn, fun x h => h⟩
  cases hra : a.revsAndError with
  | none => exact ⟨rfl, hn, fun x h => h⟩
  | some p =>
    obtain ⟨L, err⟩ := p
    have hL : ∀ r ∈ L, r.uuid ≠ u := by
      cases a with
      | revs l => cases hra; exact ha _ rfl
      | status c => cases hra; intro r hr; cases hr
      | connection => cases hra
      | client => cases hra; intro r hr; cases hr
      | raised => cases hra
    obtain ⟨d1, d2, _⟩ := foldl_drop (s.history.filter (fun r => decide (r.server = peer) && !(L.any (fun x => x.uuid = r.uuid)))) s hn
    have hk : onDisk (dropUnknown peer L s).files u = onDisk s.files u := by
      apply foldl_drop_keeps hn
      intro r hr hru
      rw [List.mem_filter] at hr
      have h2 := hr.2
      rw [Bool.and_eq_true] at h2
      exact hmem r hr.1 hru (of_decide_eq_true h2.1)
    obtain ⟨w1, w2, w3⟩ := writeRemote_keeps same ((s.history.filter (fun r => decide (r.server = peer))).map Rev.uuid) u L
      (dropUnknown peer L s) hL
    have w3 := w3 d1
    simp only []
    generalize hg : writeRemote same ((s.history.filter (fun r => decide (r.server = peer))).map Rev.uuid) L (dropUnknown peer L s) = g at *
    obtain ⟨g1, g2⟩ := g
    have hh : ∀ x ∈ g2.history, x ∈ s.history := by
      intro x hx
      rw [w2] at hx
      have : x ∈ s.history.filter _ := d2 ▸ hx
      exact List.mem_of_mem_filter this
    cases g1 <;> exact ⟨w1.trans hk, w3, hh⟩

theorem pullPeers_keeps (same : Rev → Rev → Bool) (u : String) : ∀ (answers : List (String × Answer)) (s : Repo), Named s.files →
    (∀ x ∈ s.history, x.uuid = u → x.server ∉ answers.map Prod.fst) →
    (∀ p L, (p, Answer.revs L) ∈ answers → ∀ r ∈ L, r.uuid ≠ u) →
    onDisk (pullPeers same answers s).2.files u = onDisk s.files u
  | [], s, _, _, _ => rfl
  | (p, a) :: rest, s, hn, hm, ha => by
    obtain ⟨h1, h2, h3⟩ := pullSingle_keeps same p a s u hn (fun x hx hxu he => hm x hx hxu (by simp [he]))
      (fun L hL => ha p L (by simp [hL]))
    have ih := pullPeers_keeps same u rest (pullSingle same p a s).2 h2
      (fun x hx hxu hmem => hm x (h3 x hx) hxu (by simp at hmem ⊢; exact .inr hmem))
      (fun p' L hL => ha p' L (by simp [hL]))
    simp only [pullPeers]
    generalize hg : pullSingle same p a s = g at *
    obtain ⟨g1, g2⟩ := g
    cases g1 with
    | error e => exact h1
    | ok b =>
      simp only [] at ih ⊢
      generalize hg' : pullPeers same rest g2 = g' at *
      obtain ⟨g1', g2'⟩ := g'
      cases g1' <;> exact ih.trans h1

/-- **C49 (partial)** Whatever the peers answer, a pull does not change or remove the metadata of a local revision whose id no peer
reports.  Missing: ids that a peer reports too, see `C49_false_same_id`. -/
theorem C49_local_untouched_partial (same : Rev → Rev → Bool) (answers : List (String × Answer)) (s : Repo) (hn : Named s.files)
    (hne : "" ∉ answers.map Prod.fst) (u : String) (r : Rev) (hr : onDisk s.files u = some r) (hl : r.server = "")
    (hids : ∀ p L, (p, Answer.revs L) ∈ answers → ∀ x ∈ L, x.uuid ≠ u) :
    onDisk (pull same answers s.scan).2.files u = some r := by
  have hmem : ∀ x ∈ s.scan.history, x.uuid = u → x.server = "" := by
    intro x hx hxu
    have := (Repo.scan_mem hn x).1 hx
    rw [hxu, hr] at this
    cases this; exact hl
  have hd : ∀ x ∈ s.scan.history.filter (fun r => decide (r.server ≠ "") && !((answers.map Prod.fst).contains r.server)), x.uuid ≠ u := by
    intro x hx hxu
    rw [List.mem_filter] at hx
    have := hmem x hx.1 hxu
    simp [this] at hx
  obtain ⟨d1, d2, _⟩ := foldl_drop (s.scan.history.filter (fun r => decide (r.server ≠ "") && !((answers.map Prod.fst).contains r.server)))
    s.scan hn
  have h1 := foldl_drop_keeps (s := s.scan) hn hd
  have h2 := pullPeers_keeps same u answers (removeDeadPeers (answers.map Prod.fst) s.scan) d1 (by
    intro x hx hxu
    have hx : x ∈ s.scan.history := List.mem_of_mem_filter (d2 ▸ hx)
    rw [hmem x hx hxu]; exact hne) hids
  exact h2.trans (h1.trans hr)

/-- Comparing revisions as such. -/
def sameRev (a b : Rev) : Bool := decide (a = b)

theorem sameRev_sound : SameSound sameRev := fun a b h => by simpa [sameRev] using h

/-- A complete revision. -/
def exRev (u : String) (tags origTags : Finset String) (server : String) : Rev :=
  { uuid := u, ts := 10, stats := [("duration", 1)], trust := .trusted, tags := tags, origTags := origTags, server := server }

/-- A repository with the given metadata files. -/
def exRepo (l : List Rev) : Repo := { files := l.map (fun r => (r.uuid, ⟨false, r⟩)), history := [] }

/-- **C49 is false of the code** if a peer reports a revision with the id of a local one (as after copying a repository between
servers): the local revision turns into one of the peer, and the next garbage collection deletes its data. -/
theorem C49_false_same_id : ∃ (s : Repo) (r : Rev), onDisk s.files "a" = some r ∧ r.server = "" ∧
    ∃ r', onDisk (pull sameRev [("peer", .revs [adopt "peer" r])] s.scan).2.files "a" = some r' ∧ r'.server = "peer" := by
  refine ⟨exRepo [exRev "a" {"daily"} ∅ ""], exRev "a" {"daily"} ∅ "", by decide +kernel, rfl,
    adopt "peer" (exRev "a" {"daily"} ∅ ""), by decide +kernel, rfl⟩

/-- The hypotheses of `C48_mirror` are met by a repository with a local revision, one of a removed peer and three of a peer, which
reports one of them unchanged, one changed, one no longer, and a new one. -/
example : ∃ (s : Repo) (answers : List (String × Answer)), Named s.files ∧ UniqueIds answers s ∧
    (∀ p a, (p, a) ∈ answers → ∃ L, Reports a L) ∧ (pull sameRev answers s.scan).1 = .ok 0 ∧
    (pull sameRev answers s.scan).2.files.keys = ["l", "b", "a", "n"] := by
  refine ⟨exRepo [exRev "l" {"daily"} ∅ "", exRev "d" {"x"} {"x"} "dead", exRev "b" {"x"} {"x"} "p",
      exRev "a" {"x"} {"x"} "p", exRev "c" {"x"} {"x"} "p"],
    [("p", .revs [exRev "a" {"x"} {"x"} "p", exRev "b" {"y"} {"y"} "p", exRev "n" {"x"} {"x"} "p"]), ("q", .status 404)], ?_, ?_, ?_, ?_, ?_⟩
  · refine ⟨by decide +kernel, ?_⟩
    intro n f h _
    simp only [exRepo, exRev, List.map_cons, List.map_nil, List.mem_cons, Prod.mk.injEq, List.not_mem_nil, or_false] at h
    rcases h with ⟨rfl, rfl⟩ | ⟨rfl, rfl⟩ | ⟨rfl, rfl⟩ | ⟨rfl, rfl⟩ | ⟨rfl, rfl⟩ <;> rfl
  · refine ⟨by decide +kernel, by decide +kernel, ?_, ?_, ?_⟩
    · intro p L h
      simp only [List.mem_cons, Prod.mk.injEq, Answer.revs.injEq, reduceCtorEq, and_false, List.not_mem_nil, or_false] at h
      obtain ⟨rfl, rfl⟩ := h
      exact ⟨by decide +kernel, by decide +kernel⟩
    · intro p L h
      simp only [List.mem_cons, Prod.mk.injEq, Answer.revs.injEq, reduceCtorEq, and_false, List.not_mem_nil, or_false] at h
      obtain ⟨rfl, rfl⟩ := h
      intro r hr x hx
      simp only [List.mem_cons, List.not_mem_nil, or_false] at hr
      rcases hr with rfl | rfl | rfl
      · have : onDisk (exRepo [exRev "l" {"daily"} ∅ "", exRev "d" {"x"} {"x"} "dead", exRev "b" {"x"} {"x"} "p",
            exRev "a" {"x"} {"x"} "p", exRev "c" {"x"} {"x"} "p"]).files (exRev "a" {"x"} {"x"} "p").uuid =
              some (exRev "a" {"x"} {"x"} "p") := by decide +kernel
        rw [this] at hx; cases hx; rfl
      · have : onDisk (exRepo [exRev "l" {"daily"} ∅ "", exRev "d" {"x"} {"x"} "dead", exRev "b" {"x"} {"x"} "p",
            exRev "a" {"x"} {"x"} "p", exRev "c" {"x"} {"x"} "p"]).files (exRev "b" {"y"} {"y"} "p").uuid =
              some (exRev "b" {"x"} {"x"} "p") := by decide +kernel
        rw [this] at hx; cases hx; rfl
      · have : onDisk (exRepo [exRev "l" {"daily"} ∅ "", exRev "d" {"x"} {"x"} "dead", exRev "b" {"x"} {"x"} "p",
            exRev "a" {"x"} {"x"} "p", exRev "c" {"x"} {"x"} "p"]).files (exRev "n" {"x"} {"x"} "p").uuid = none := by decide +kernel
        rw [this] at hx; cases hx
    · intro p L p' L' h h'
      simp only [List.mem_cons, Prod.mk.injEq, Answer.revs.injEq, reduceCtorEq, and_false, List.not_mem_nil, or_false] at h h'
      intros
      rw [h.1, h'.1]
  · intro p a h
    simp only [List.mem_cons, Prod.mk.injEq, List.not_mem_nil, or_false] at h
    rcases h with ⟨_, rfl⟩ | ⟨_, rfl⟩
    · exact ⟨_, .inl rfl⟩
    · exact ⟨[], .inr ⟨.inl rfl, rfl⟩⟩
  · decide +kernel
  · decide +kernel

/-! ## C51 -/

/-- **C51 (partial)** A peer that cannot be reached: a pull from it changes nothing.  Missing: other errors and pending
changes, see the following theorems. -/
theorem C51_connection_error_partial (same : Rev → Rev → Bool) (peer : String) (s : Repo) :
    pullSingle same peer .connection s = (.ok true, s) := rfl

/-- **C51 is false of the code**: an error of the peer (here 500, but also 401 or 503) makes all its revisions disappear. -/
theorem C51_false_error_drops : ∃ s : Repo, onDisk s.files "a" = some (exRev "a" {"daily"} {"daily"} "peer") ∧
    onDisk (pull sameRev [("peer", .status 500)] s.scan).2.files "a" = none := by
  refine ⟨exRepo [exRev "a" {"daily"} {"daily"} "peer"], by decide +kernel, by decide +kernel⟩

/-- **C51 is false of the code**: a change of tags that has not been pushed yet is undone by the next pull, which every run of the
job does before it pushes. -/
theorem C51_false_pull_discards : ∃ (s : Repo) (r q : Rev), onDisk s.files "a" = some r ∧ r.pending = true ∧ q.tags = r.origTags ∧
    ∃ r', onDisk (pull sameRev [("peer", .revs [adopt "peer" q])] s.scan).2.files "a" = some r' ∧ r'.pending = false ∧
      r'.tags ≠ r.tags := by
  refine ⟨exRepo [exRev "a" {"manual:keep"} {"daily"} "peer"], exRev "a" {"manual:keep"} {"daily"} "peer", exRev "a" {"daily"} ∅ "",
    by decide +kernel, by decide +kernel, rfl, adopt "peer" (exRev "a" {"daily"} ∅ ""), by decide +kernel, by decide +kernel,
    by decide +kernel⟩

theorem exRepo_named {l : List Rev} (h : (l.map Rev.uuid).Nodup) : Named (exRepo l).files := by
  refine ⟨?_, ?_⟩
  · show ((l.map _).map _).Nodup
    rw [List.map_map]; exact h
  · intro n f hm _
    simp only [exRepo, List.mem_map, Prod.mk.injEq] at hm
    obtain ⟨r, _, rfl, rfl⟩ := hm
    rfl

/-- C48_errors_counted: one peer answers, one cannot be reached. -/
example := C48_errors_counted sameRev [("p", .revs [exRev "a" {"x"} {"x"} "p"]), ("q", .connection)] (exRepo []).scan _ 1
  (Prod.ext (by decide +kernel) rfl)

/-- C49_local_untouched_partial -/
example := C49_local_untouched_partial sameRev [("p", .revs [exRev "a" {"x"} {"x"} "p"]), ("q", .connection)]
  (exRepo [exRev "l" {"daily"} ∅ "", exRev "d" {"x"} {"x"} "dead"]) (exRepo_named (by decide)) (by decide) "l" (exRev "l" {"daily"} ∅ "")
  (by decide +kernel) rfl
  (by intro p L h
      simp only [List.mem_cons, Prod.mk.injEq, Answer.revs.injEq, reduceCtorEq, and_false, List.not_mem_nil, or_false] at h
      obtain ⟨rfl, rfl⟩ := h
      decide)

theorem pullPeers_unreachable (same : Rev → Rev → Bool) (u : String) : ∀ (answers : List (String × Answer)) (s : Repo), Named s.files →
    (∀ x ∈ s.history, x.uuid = u → ∀ a, (x.server, a) ∈ answers → a = .connection ∨ a = .raised) →
    (∀ p L, (p, Answer.revs L) ∈ answers → ∀ r ∈ L, r.uuid ≠ u) →
    onDisk (pullPeers same answers s).2.files u = onDisk s.files u
  | [], s, _, _, _ => rfl
  | (p, a) :: rest, s, hn, hm, ha => by
    have hstep : onDisk (pullSingle same p a s).2.files u = onDisk s.files u ∧ Named (pullSingle same p a s).2.files ∧
        ∀ x ∈ (pullSingle same p a s).2.history, x ∈ s.history := by
      by_cases hq : a = .connection ∨ a = .raised
      · rcases hq with rfl | rfl <;> exact ⟨rfl, hn, fun x h => h⟩
      · refine pullSingle_keeps same p a s u hn (fun x hx hxu he => hq (hm x hx hxu a ?_)) (fun L hL => ha p L (by simp [hL]))
        simp [he]
    obtain ⟨h1, h2, h3⟩ := hstep
    have ih := pullPeers_unreachable same u rest (pullSingle same p a s).2 h2
      (fun x hx hxu b hb => hm x (h3 x hx) hxu b (List.mem_cons_of_mem _ hb))
      (fun p' L hL => ha p' L (by simp [hL]))
    simp only [pullPeers]
    generalize hg : pullSingle same p a s = g at *
    obtain ⟨g1, g2⟩ := g
    cases g1 with
    | error e => exact h1
    | ok b =>
      simp only [] at ih ⊢
      generalize hg' : pullPeers same rest g2 = g' at *
      obtain ⟨g1', g2'⟩ := g'
      cases g1' <;> exact ih.trans h1

/-- **C51 (partial)** A configured peer cannot be reached during a pull (no connection, or no answer in time), whatever the other
peers answer: its revisions stay as they were, with the changes of tags that are pending, unless another peer reports their ids.
Missing: errors that the peer answers with and pending changes of peers that can be reached, see the following theorems. -/
theorem C51_unreachable_partial (same : Rev → Rev → Bool) (answers : List (String × Answer)) (s : Repo) (hn : Named s.files)
    (u : String) (r : Rev) (hr : onDisk s.files u = some r) (hp : r.server ∈ answers.map Prod.fst)
    (hd : ∀ a, (r.server, a) ∈ answers → a = .connection ∨ a = .raised)
    (hids : ∀ p L, (p, Answer.revs L) ∈ answers → ∀ x ∈ L, x.uuid ≠ u) :
    onDisk (pull same answers s.scan).2.files u = some r := by
  have hmem : ∀ x ∈ s.scan.history, x.uuid = u → x = r := by
    intro x hx hxu
    have := (Repo.scan_mem hn x).1 hx
    rw [hxu, hr] at this
    cases this; rfl
  have hk : ∀ x ∈ s.scan.history.filter (fun r => decide (r.server ≠ "") && !((answers.map Prod.fst).contains r.server)), x.uuid ≠ u := by
    intro x hx hxu
    rw [List.mem_filter] at hx
    have he := hmem x hx.1 hxu
    subst he
    have h2 := hx.2
    rw [Bool.and_eq_true, Bool.not_eq_true'] at h2
    have h3 := List.contains_iff_mem.2 hp
    rw [h3] at h2
    cases h2.2
  obtain ⟨d1, d2, _⟩ := foldl_drop (s.scan.history.filter (fun r => decide (r.server ≠ "") && !((answers.map Prod.fst).contains r.server)))
    s.scan hn
  have h1 := foldl_drop_keeps (s := s.scan) hn hk
  have h2 := pullPeers_unreachable same u answers (removeDeadPeers (answers.map Prod.fst) s.scan) d1 (by
    intro x hx hxu a hxa
    have hx : x ∈ s.scan.history := List.mem_of_mem_filter (d2 ▸ hx)
    rw [hmem x hx hxu] at hxa
    exact hd a hxa) hids
  exact h2.trans (h1.trans hr)

/-- The hypotheses are met by a pending change of a peer without a connection, while another peer reports a revision. -/
example : onDisk (pull sameRev [("peer", .connection), ("other", .revs [exRev "b" {"daily"} {"daily"} "other"])]
      (exRepo [exRev "a" {"weekly"} {"daily"} "peer", exRev "c" {"daily"} ∅ ""]).scan).2.files "a" =
    some (exRev "a" {"weekly"} {"daily"} "peer") := by
  refine C51_unreachable_partial sameRev _ _ (exRepo_named (by decide)) "a" _ (by decide +kernel) (by decide) ?_ ?_
  · intro a h
    simp [exRev] at h
    exact .inl h
  · intro p L h x hx
    simp at h
    obtain ⟨rfl, rfl⟩ := h
    simp at hx
    subst hx
    decide

end Verif.Sync
