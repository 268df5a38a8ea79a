import Verif.Proofs.DiffDecode
import Verif.Proofs.ChunkedOpen
/-! # Integrating a diff into an image -/
namespace Verif.Diff
open Verif Verif.Chunked Verif.Spec

theorem exec_log (env : Env) (ops : List Op) (s : S) : s.w.log ⊆ (exec env ops s).2.w.log := by
  induction ops generalizing s with
  | nil => exact fun _ h => h
  | cons op ops ih =>
    unfold exec
    dsimp only
    have h := S.step_log env s op
    split
    · exact h
    · exact fun x hx => ih _ (h hx)

/-- All steps succeed on the flat file. -/
def flatOK : Flat → List Op → Prop
  | _, [] => True
  | fl, op :: ops => (∃ o, (fl.step op).2 = .ok o) ∧ flatOK (fl.step op).1 ops

/-- `s` represents an open writable image with content `c` at some position. -/
def Rw (env : Env) (s : S) (c : Bytes) (pos : Nat) (r : Bool) : Prop := R env s ⟨c, pos, r, true, false⟩

theorem exec_ok {env : Env} {L : List Bytes} (hL : CollFree env.H L) (ops : List Op) :
    ∀ {s : S} {fl : Flat}, R env s fl → flatOK fl ops → (exec env ops s).2.w.log ⊆ L →
      ∃ s', exec env ops s = (.ok (), s') ∧ R env s' (fl.run ops) ∧ ExtN s.f.name s.w s'.w ∧
        s'.f.name = s.f.name := by
  induction ops with
  | nil => intro s fl h _ _; exact ⟨s, rfl, h, ExtN.refl _ _, rfl⟩
  | cons op ops ih =>
    intro s fl h hok hlog
    obtain ⟨⟨o, ho⟩, hok'⟩ := hok
    have hl : (s.step env op).1.w.log ⊆ L := by
      refine List.Subset.trans ?_ hlog
      unfold exec
      dsimp only
      split
      · exact fun _ h => h
      · exact exec_log env ops _
    obtain ⟨h1, h2, h3, h4⟩ := step_ok hL h op hl
    rw [ho] at h2
    unfold exec at hlog ⊢
    simp only [h2] at hlog ⊢
    obtain ⟨s', e1, e2, e3, e4⟩ := ih h1 hok' hlog
    refine ⟨s', e1, e2, ?_, e4.trans h4⟩
    rw [h4] at e3; exact h3.trans e3

theorem applyRec_log (env : Env) (f t : Bytes) (s : S) (r : Rec) :
    s.w.log ⊆ (applyRec env f t s r).2.w.log := by
  cases r with
  | size n => exact exec_log _ _ _
  | fromSnap b => simp only [applyRec]; split <;> exact fun _ h => h
  | toSnap b => simp only [applyRec]; split <;> exact fun _ h => h
  | zero start length =>
    simp only [applyRec]
    have h := exec_log env [.seek start .set] s
    split
    · rename_i heq; rw [heq] at h; exact h
    · rename_i s' heq; rw [heq] at h
      refine fun x hx => ?_
      unfold punchHole
      split
      · exact h hx
      · exact exec_log env _ _ (h hx)
  | data start l chunks => exact exec_log _ _ _

theorem applyRecs_log (env : Env) (f t : Bytes) (l : List Rec) (s : S) :
    s.w.log ⊆ (applyRecs env f t l s).2.w.log := by
  induction l generalizing s with
  | nil => exact fun _ h => h
  | cons r l ih =>
    unfold applyRecs
    have h := applyRec_log env f t s r
    split
    · rename_i heq; rw [heq] at h; exact h
    · rename_i s' heq; rw [heq] at h; exact fun x hx => ih _ (h hx)

theorem integrate_log (env : Env) (stream f t : Bytes) (s : S) :
    s.w.log ⊆ (integrate env stream f t s).2.w.log := by
  unfold integrate
  dsimp only
  have h := applyRecs_log env f t (decode env stream).1 s
  split
  · rename_i heq; rw [heq] at h; exact h
  · rename_i s' heq; rw [heq] at h
    split <;> exact h

/-- Resize a byte string, filling with zeros. -/
def resize (c : Bytes) (n : Nat) : Bytes := c.take n ++ zeros (n - c.length)

theorem resize_length (c : Bytes) (n : Nat) : (resize c n).length = n := by
  simp [resize]; omega

theorem resize_self (c : Bytes) (n : Nat) (h : c.length = n) : resize c n = c := by
  subst h; simp [resize, zeros]

theorem resize_resize (c : Bytes) (n : Nat) : resize (resize c n) n = resize c n :=
  resize_self _ _ (resize_length c n)

theorem resize_getElem? (c : Bytes) (n p : Nat) (h : p < n) :
    (resize c n)[p]? = some ((c[p]?).getD 0) := by
  unfold resize
  by_cases hp : p < c.length
  · rw [List.getElem?_append_left (by simp; omega)]
    simp [h, hp]
  · rw [List.getElem?_append_right (by simp; omega), zeros_getElem?]
    rw [if_pos (by simp; omega)]
    simp [List.getElem?_eq_none (Nat.le_of_not_lt hp)]

theorem flat_seek_any (c : Bytes) (pos n : Nat) (r : Bool) :
    (⟨c, pos, r, true, false⟩ : Flat).step (.seek n .set) =
      (⟨c ++ zeros (n - c.length), n, r, true, false⟩, .ok (.nat n)) := by
  simp only [Flat.step, Flat.target]
  rw [if_neg (by simp), if_neg (by omega)]
  by_cases h : n ≤ c.length
  · have : n - c.length = 0 := by omega
    rw [if_pos (by simpa using h)]
    simp [this, zeros]
  · rw [if_neg (by simpa using h)]
    simp

theorem flat_size (c : Bytes) (pos n : Nat) (r : Bool) :
    flatOK ⟨c, pos, r, true, false⟩ [.seek n .set, .truncate] ∧
    (⟨c, pos, r, true, false⟩ : Flat).run [.seek n .set, .truncate] =
      ⟨resize c n, n, r, true, false⟩ := by
  have hs := flat_seek_any c pos n r
  have ht : (⟨c ++ zeros (n - c.length), n, r, true, false⟩ : Flat).step .truncate =
      (⟨resize c n, n, r, true, false⟩, .ok .unit) := by
    simp only [Flat.step]
    rw [if_neg (by simp)]
    have : (c ++ zeros (n - c.length)).take n = resize c n := by
      unfold resize
      rw [List.take_append]
      congr 1
      exact List.take_of_length_le (by simp)
    rw [this]
  refine ⟨⟨⟨_, by rw [hs]⟩, ?_⟩, ?_⟩
  · rw [hs]; exact ⟨⟨_, by rw [ht]⟩, trivial⟩
  · show (((⟨c, pos, r, true, false⟩ : Flat).step (.seek n .set)).1.step .truncate).1 = _
    rw [hs]; dsimp only; rw [ht]

theorem flat_seek (c : Bytes) (pos n : Nat) (r : Bool) (h : n ≤ c.length) :
    (⟨c, pos, r, true, false⟩ : Flat).step (.seek n .set) = (⟨c, n, r, true, false⟩, .ok (.nat n)) := by
  have : n - c.length = 0 := by omega
  rw [flat_seek_any, this]; simp [zeros]

theorem flat_write (c : Bytes) (pos : Nat) (d : Bytes) (r : Bool) (h : pos ≤ c.length) :
    (⟨c, pos, r, true, false⟩ : Flat).step (.write d) =
      (⟨writeAt c pos d, pos + d.length, r, true, false⟩, .ok .unit) := by
  rw [writeAt_eq_splice _ _ _ h]; simp [Flat.step]

theorem flat_writes (l : List Bytes) (c : Bytes) (pos : Nat) (r : Bool)
    (h : pos + l.flatten.length ≤ c.length) :
    flatOK ⟨c, pos, r, true, false⟩ (l.map .write) ∧
    (⟨c, pos, r, true, false⟩ : Flat).run (l.map .write) =
      ⟨writeAt c pos l.flatten, pos + l.flatten.length, r, true, false⟩ := by
  induction l generalizing c pos with
  | nil => simp [flatOK, Flat.run, writeAt]
  | cons d l ih =>
    simp only [List.flatten_cons, List.length_append] at h
    have hs := flat_write c pos d r (by omega)
    have hlen : (writeAt c pos d).length = c.length := by
      rw [writeAt_length]; split <;> omega
    obtain ⟨i1, i2⟩ := ih (writeAt c pos d) (pos + d.length) (by rw [hlen]; omega)
    simp only [List.map_cons, flatOK, hs]
    refine ⟨⟨⟨_, rfl⟩, i1⟩, ?_⟩
    show ((⟨c, pos, r, true, false⟩ : Flat).step (.write d)).1.run _ = _
    rw [hs]
    dsimp only
    rw [i2, writeAt_append]
    simp [Nat.add_assoc]

/-- Effect of one data record on the content. -/
def putRec (c : Bytes) : DataRec → Bytes
  | .data start payload => writeAt c start payload
  | .zero start length => writeAt c start (zeros length)

theorem applyRec_data {env : Env} {L : List Bytes} (hL : CollFree env.H L) (f t : Bytes)
    (d : DataRec) (new : Bytes) (ht : d.TrueOf new) {s : S} {c : Bytes} {pos : Nat} {r : Bool}
    (h : Rw env s c pos r) (hlen : c.length = new.length)
    (hlog : (applyRec env f t s (DataRec.rec env d)).2.w.log ⊆ L) :
    ∃ s' pos', applyRec env f t s (DataRec.rec env d) = (.ok (), s') ∧ Rw env s' (putRec c d) pos' r ∧
      ExtN s.f.name s.w s'.w ∧ s'.f.name = s.f.name := by
  cases d with
  | data start payload =>
    simp only [DataRec.rec, applyRec] at hlog ⊢
    obtain ⟨hb, _⟩ := ht
    have hp := (pieces_flatten env.blk env.blk_pos payload).1
    have hw := flat_writes (pieces env.blk env.blk_pos payload) c start r (by rw [hp]; omega)
    have hs := flat_seek c pos start r (by omega)
    have hok : flatOK ⟨c, pos, r, true, false⟩ (.seek start .set :: (pieces env.blk env.blk_pos payload).map .write) := by
      refine ⟨⟨_, by rw [hs]⟩, ?_⟩
      rw [hs]; exact hw.1
    obtain ⟨s', e1, e2, e3, e4⟩ := exec_ok hL _ h hok hlog
    refine ⟨s', start + payload.length, e1, ?_, e3, e4⟩
    have : (⟨c, pos, r, true, false⟩ : Flat).run (.seek start .set :: (pieces env.blk env.blk_pos payload).map .write)
        = ⟨writeAt c start payload, start + payload.length, r, true, false⟩ := by
      show ((⟨c, pos, r, true, false⟩ : Flat).step (.seek start .set)).1.run _ = _
      rw [hs]
      dsimp only
      rw [hw.2, hp]
    rw [this] at e2
    exact e2
  | zero start length =>
    obtain ⟨hpos, hb, _⟩ := ht
    simp only [DataRec.rec, applyRec] at hlog ⊢
    have hs := flat_seek c pos start r (by omega)
    have hok1 : flatOK ⟨c, pos, r, true, false⟩ [.seek start .set] := ⟨⟨_, by rw [hs]⟩, trivial⟩
    have hl1 : (exec env [.seek start .set] s).2.w.log ⊆ L := by
      refine List.Subset.trans ?_ hlog
      split
      · rename_i heq; rw [heq]; exact fun _ h => h
      · rename_i s' heq; rw [heq]
        unfold punchHole
        split
        · exact fun _ h => h
        · exact exec_log env _ _
    obtain ⟨s1, e1, e2, e3, e4⟩ := exec_ok hL _ h hok1 hl1
    rw [e1] at hlog ⊢
    dsimp only at hlog ⊢
    have e2' : Rw env s1 c start r := by
      have : (⟨c, pos, r, true, false⟩ : Flat).run [.seek start .set] = ⟨c, start, r, true, false⟩ := by
        show ((⟨c, pos, r, true, false⟩ : Flat).step (.seek start .set)).1 = _
        rw [hs]
      rw [this] at e2; exact e2
    have hp1 : s1.f.pos = start := e2'.pos
    unfold punchHole at hlog ⊢
    rw [if_neg (by omega)] at hlog ⊢
    rw [hp1] at hlog ⊢
    have hs2 := flat_seek c start start r (by omega)
    have hw2 := flat_write c start (zeros length) r (by omega)
    have hlw : (writeAt c start (zeros length)).length = c.length := by
      rw [writeAt_length]; split <;> simp <;> omega
    have hs3 := flat_seek (writeAt c start (zeros length)) (start + (zeros length).length) start r
      (by rw [hlw]; omega)
    have hok2 : flatOK ⟨c, start, r, true, false⟩ [.seek start .set, .write (zeros length), .seek start .set] := by
      refine ⟨⟨_, by rw [hs2]⟩, ?_⟩
      rw [hs2]
      refine ⟨⟨_, by rw [hw2]⟩, ?_⟩
      rw [hw2]
      exact ⟨⟨_, by rw [hs3]⟩, trivial⟩
    obtain ⟨s2, g1, g2, g3, g4⟩ := exec_ok hL _ e2' hok2 hlog
    refine ⟨s2, start, g1, ?_, ?_, g4.trans e4⟩
    · have : (⟨c, start, r, true, false⟩ : Flat).run [.seek start .set, .write (zeros length), .seek start .set]
          = ⟨writeAt c start (zeros length), start, r, true, false⟩ := by
        show ((((⟨c, start, r, true, false⟩ : Flat).step (.seek start .set)).1.step (.write (zeros length))).1.step
          (.seek start .set)).1 = _
        rw [hs2]; dsimp only; rw [hw2]; dsimp only; rw [hs3]
      rw [this] at g2; exact g2
    · rw [e4] at g3; exact e3.trans g3

theorem putRec_length {c : Bytes} {d : DataRec} {new : Bytes} (ht : d.TrueOf new)
    (hlen : c.length = new.length) : (putRec c d).length = new.length := by
  cases d with
  | data start payload =>
    have := ht.1
    simp only [putRec, writeAt_length]
    split <;> omega
  | zero start length =>
    have := ht.2.1
    simp only [putRec, writeAt_length, zeros_length]
    split <;> omega

theorem putRec_get {c : Bytes} {d : DataRec} {new : Bytes} (ht : d.TrueOf new)
    (hlen : c.length = new.length) (p : Nat) (hp : p < new.length) :
    (d.Covers p → (putRec c d)[p]? = new[p]?) ∧ (¬ d.Covers p → (putRec c d)[p]? = c[p]?) := by
  cases d with
  | data start payload =>
    obtain ⟨h1, h2⟩ := ht
    simp only [putRec, DataRec.Covers, getElem?_writeAt]
    by_cases hd : payload = []
    · subst hd; simp
    · simp only [hd, if_false]
      constructor
      · rintro ⟨ha, hb⟩
        rw [if_neg (by omega), if_pos hb]
        have := h2 (p - start) (by omega)
        rw [← this]; congr 1; omega
      · intro hn
        by_cases ha : p < start
        · rw [if_pos ha, if_pos (by omega)]
        · rw [if_neg ha, if_neg (by omega)]
  | zero start length =>
    obtain ⟨h0, h1, h2⟩ := ht
    simp only [putRec, DataRec.Covers, getElem?_writeAt, zeros_length]
    have hd : zeros length ≠ [] := by
      intro h; have := congrArg List.length h; simp at this; omega
    simp only [hd, if_false]
    constructor
    · rintro ⟨ha, hb⟩
      rw [if_neg (by omega), if_pos hb]
      have := h2 (p - start) (by omega)
      rw [zeros_getElem?, if_pos (by omega), ← this]; congr 1; omega
    · intro hn
      by_cases ha : p < start
      · rw [if_pos ha, if_pos (by omega)]
      · rw [if_neg ha, if_neg (by omega)]

theorem applyRecs_append (env : Env) (f t : Bytes) (a b : List Rec) (s : S) :
    applyRecs env f t (a ++ b) s =
      match applyRecs env f t a s with
      | (.error e, s) => (.error e, s)
      | (.ok (), s) => applyRecs env f t b s := by
  induction a generalizing s with
  | nil => rfl
  | cons r a ih =>
    simp only [List.cons_append, applyRecs]
    cases applyRec env f t s r with
    | mk x s' => cases x with
      | error e => rfl
      | ok u => exact ih s'

theorem applyRecs_datas {env : Env} {L : List Bytes} (hL : CollFree env.H L) (f t : Bytes) (new : Bytes)
    (l : List DataRec) : ∀ {s : S} {c : Bytes} {pos : Nat} {r : Bool}, (∀ d ∈ l, d.TrueOf new) →
      Rw env s c pos r → c.length = new.length →
      (∀ p, p < new.length → c[p]? = new[p]? ∨ ∃ d ∈ l, d.Covers p) →
      (applyRecs env f t (l.map (DataRec.rec env)) s).2.w.log ⊆ L →
      ∃ s' pos', applyRecs env f t (l.map (DataRec.rec env)) s = (.ok (), s') ∧ Rw env s' new pos' r ∧
        ExtN s.f.name s.w s'.w ∧ s'.f.name = s.f.name := by
  induction l with
  | nil =>
    intro s c pos r _ h hlen hc _
    have : c = new := by
      apply List.ext_getElem?
      intro p
      by_cases hp : p < new.length
      · rcases hc p hp with h | ⟨d, hd, _⟩
        · exact h
        · simp at hd
      · rw [List.getElem?_eq_none (by omega), List.getElem?_eq_none (by omega)]
    subst this
    exact ⟨s, pos, rfl, h, ExtN.refl _ _, rfl⟩
  | cons d l ih =>
    intro s c pos r ht h hlen hc hlog
    have hd := ht d (by simp)
    have hl1 : (applyRec env f t s (DataRec.rec env d)).2.w.log ⊆ L := by
      refine List.Subset.trans ?_ hlog
      simp only [List.map_cons, applyRecs]
      split
      · rename_i heq; rw [heq]; exact fun _ h => h
      · rename_i heq; rw [heq]; exact applyRecs_log _ _ _ _ _
    obtain ⟨s1, p1, e1, e2, e3, e4⟩ := applyRec_data hL f t d new hd h hlen hl1
    simp only [List.map_cons, applyRecs, e1] at hlog ⊢
    obtain ⟨s2, p2, g1, g2, g3, g4⟩ := ih (fun x hx => ht x (by simp [hx])) e2 (putRec_length hd hlen)
      (fun p hp => by
        by_cases hcov : d.Covers p
        · exact .inl ((putRec_get hd hlen p hp).1 hcov)
        · rw [(putRec_get hd hlen p hp).2 hcov]
          rcases hc p hp with h | ⟨d', hd', hcov'⟩
          · exact .inl h
          · rcases List.mem_cons.1 hd' with rfl | hd'
            · exact absurd hcov' hcov
            · exact .inr ⟨d', hd', hcov'⟩) hlog
    refine ⟨s2, p2, g1, g2, ?_, g4.trans e4⟩
    rw [e4] at g3; exact e3.trans g3

theorem applyRecs_metas {env : Env} {L : List Bytes} (hL : CollFree env.H L) (f t : Bytes) (n : Nat)
    (l : List MetaRec) : ∀ {s : S} {c : Bytes} {pos : Nat} {r : Bool},
      (∀ b, MetaRec.fromSnap b ∈ l → b = f) → (∀ b, MetaRec.toSnap b ∈ l → b = t) →
      (∀ k, MetaRec.size k ∈ l → k = n) → Rw env s c pos r →
      (applyRecs env f t (l.map MetaRec.rec) s).2.w.log ⊆ L →
      ∃ s' pos', applyRecs env f t (l.map MetaRec.rec) s = (.ok (), s') ∧
        Rw env s' (if MetaRec.size n ∈ l then resize c n else c) pos' r ∧
        ExtN s.f.name s.w s'.w ∧ s'.f.name = s.f.name := by
  induction l with
  | nil => intro s c pos r _ _ _ h _; exact ⟨s, pos, rfl, by simpa using h, ExtN.refl _ _, rfl⟩
  | cons m l ih =>
    intro s c pos r hf ht hs h hlog
    have hl1 : (applyRec env f t s (MetaRec.rec m)).2.w.log ⊆ L := by
      refine List.Subset.trans ?_ hlog
      simp only [List.map_cons, applyRecs]
      split
      · rename_i heq; rw [heq]; exact fun _ h => h
      · rename_i heq; rw [heq]; exact applyRecs_log _ _ _ _ _
    have hstep : ∃ s1 p1, applyRec env f t s (MetaRec.rec m) = (.ok (), s1) ∧
        Rw env s1 (if m = MetaRec.size n then resize c n else c) p1 r ∧ ExtN s.f.name s.w s1.w ∧
        s1.f.name = s.f.name := by
      cases m with
      | fromSnap b =>
        have := hf b (by simp); subst this
        exact ⟨s, pos, by simp [MetaRec.rec, applyRec], by simpa using h, ExtN.refl _ _, rfl⟩
      | toSnap b =>
        have := ht b (by simp); subst this
        exact ⟨s, pos, by simp [MetaRec.rec, applyRec], by simpa using h, ExtN.refl _ _, rfl⟩
      | size k =>
        have := hs k (by simp); subst this
        simp only [MetaRec.rec, applyRec] at hl1 ⊢
        obtain ⟨f1, f2⟩ := flat_size c pos k r
        obtain ⟨s', e1, e2, e3, e4⟩ := exec_ok hL _ h f1 hl1
        rw [f2] at e2
        exact ⟨s', k, e1, by rw [if_pos trivial]; exact e2, e3, e4⟩
    obtain ⟨s1, p1, e1, e2, e3, e4⟩ := hstep
    simp only [List.map_cons, applyRecs, e1] at hlog ⊢
    obtain ⟨s2, p2, g1, g2, g3, g4⟩ := ih (fun b hb => hf b (by simp [hb])) (fun b hb => ht b (by simp [hb]))
      (fun b hb => hs b (by simp [hb])) e2 hlog
    refine ⟨s2, p2, g1, ?_, ?_, g4.trans e4⟩
    · have : (if MetaRec.size n ∈ l then resize (if m = MetaRec.size n then resize c n else c) n
          else if m = MetaRec.size n then resize c n else c) =
          (if MetaRec.size n ∈ m :: l then resize c n else c) := by
        by_cases h1 : m = MetaRec.size n
        · subst h1; simp [resize_resize]
        · simp [h1, Ne.symm h1]
      rw [this] at g2; exact g2
    · rw [e4] at g3; exact e3.trans g3

/-- Integrating the stream of a describing diff. -/
theorem integrate_ok {env : Env} {L : List Bytes} (hL : CollFree env.H L) (d : Diff) (hv : d.Valid)
    (f t old new : Bytes) (hd : d.Describes f t old new) {s : S} {pos : Nat} {r : Bool}
    (h : Rw env s old pos r) (hlog : (integrate env d.encode f t s).2.w.log ⊆ L) :
    ∃ s' pos', integrate env d.encode f t s = (.ok (), s') ∧ Rw env s' new pos' r ∧
      ExtN s.f.name s.w s'.w ∧ s'.f.name = s.f.name := by
  obtain ⟨fuel, hfuel, hdec⟩ := decode_datas env d hv [101]
  have henc : d.encode = diffHeader ++ encMetas d.metas ++ encDatas d.datas ++ [101] := rfl
  rw [← henc] at hdec
  have hend : ∀ phase, readRecords env fuel phase [101] = ([], none) := by
    intro phase
    obtain ⟨k, rfl⟩ : ∃ k, fuel = k + 1 := ⟨fuel - 1, by simp at hfuel; omega⟩
    simp [readRecords, readRecord]
  rw [hend, List.append_nil] at hdec
  unfold integrate at hlog ⊢
  rw [hdec] at hlog ⊢
  dsimp only at hlog ⊢
  have hl0 : (applyRecs env f t (d.metas.map MetaRec.rec ++ d.datas.map (DataRec.rec env)) s).2.w.log ⊆ L := by
    refine List.Subset.trans ?_ hlog
    split <;> (rename_i heq; rw [heq]; exact fun _ h => h)
  have hl1 : (applyRecs env f t (d.metas.map MetaRec.rec) s).2.w.log ⊆ L := by
    refine List.Subset.trans ?_ hl0
    rw [applyRecs_append]
    split
    · rename_i heq; rw [heq]; exact fun _ h => h
    · rename_i heq; rw [heq]; exact applyRecs_log _ _ _ _ _
  obtain ⟨s1, p1, e1, e2, e3, e4⟩ := applyRecs_metas hL f t new.length d.metas hd.from_ hd.to_ hd.size_only
    h hl1
  rw [if_pos hd.size] at e2
  rw [applyRecs_append, e1] at hlog hl0 ⊢
  dsimp only at hlog hl0 ⊢
  obtain ⟨s2, p2, g1, g2, g3, g4⟩ := applyRecs_datas hL f t new d.datas hd.true_ e2 (resize_length _ _)
    (fun p hp => by
      rw [resize_getElem? old new.length p hp]
      by_cases he : (old[p]?).getD 0 = (new[p]?).getD 0
      · left; rw [he, List.getElem?_eq_getElem hp]; rfl
      · exact .inr (hd.covers p hp he)) hl0
  rw [g1]
  refine ⟨s2, p2, rfl, g2, ?_, g4.trans e4⟩
  rw [e4] at g3; exact e3.trans g3

end Verif.Diff
