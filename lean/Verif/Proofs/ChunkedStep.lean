import Verif.Proofs.ChunkedRefine
/-!
# Every operation of the chunked file refines the flat file
-/
namespace Verif.Chunked
open Verif Verif.Spec

/-- `w'` keeps all chunk contents of `w` and all mapping files except possibly `name`. -/
structure ExtN (name : String) (w w' : World) : Prop where
  chunks : ∀ h d, w.chunks.get? h = some (some d) → w'.chunks.get? h = some (some d)
  metas : ∀ n, n ≠ name → w'.metas.get? n = w.metas.get? n
  force : w'.force = w.force

theorem Ext.toN {w w' : World} (h : Ext w w') (n : String) : ExtN n w w' :=
  ⟨h.chunks, fun _ _ => by rw [h.metas], h.force⟩
theorem ExtN.refl (n : String) (w : World) : ExtN n w w := (Ext.refl w).toN n
theorem ExtN.trans {n : String} {a b c : World} (h : ExtN n a b) (h' : ExtN n b c) : ExtN n a c :=
  ⟨fun x d hx => h'.chunks x d (h.chunks x d hx), fun m hm => (h'.metas m hm).trans (h.metas m hm),
    h'.force.trans h.force⟩

theorem OnDisk.ext {env : Env} {w w' : World} {n name : String} (he : ExtN n w w') (hne : name ≠ n)
    {c : Bytes} (h : OnDisk env w name c) : OnDisk env w' name c := by
  obtain ⟨m, h1, h2, h3, h4⟩ := h
  refine ⟨m, by rw [he.metas name hne, h1], h2, ?_, ?_⟩
  · intro x hx
    obtain ⟨d, hd⟩ := h3 x hx
    exact ⟨d, he.chunks _ _ hd⟩
  · intro p hp
    obtain ⟨x, d, e1, e2, e3, e4⟩ := h4 p hp
    exact ⟨x, d, e1, he.chunks _ _ e2, e3, e4⟩

/-- Coupling of a chunked file and a flat file. -/
structure R (env : Env) (s : S) (fl : Flat) : Prop where
  rep : Rep env s fl.content
  pos : s.f.pos = fl.pos
  r : s.f.mode.r = fl.readable
  w : s.f.mode.w = fl.writable
  closed : s.f.closed = fl.closed

theorem Same.R {env : Env} {s s' : S} {fl : Flat} (h : R env s fl) (hs : Same s.f s'.f)
    {c : Bytes} {p : Nat} (hr : Rep env s' c) (hp : s'.f.pos = p) :
    R env s' { fl with content := c, pos := p } :=
  ⟨hr, hp, by rw [hs.mode]; exact h.r, by rw [hs.mode]; exact h.w, by rw [hs.closed]; exact h.closed⟩

theorem stored_some {env : Env} {w : World} (hw : WOK env w) {m : Option Hash} {i : Nat} {b : UInt8}
    (h : (stored w m)[i]? = some b) :
    ∃ x d, m = some x ∧ w.chunks.get? x = some (some d) ∧ env.H d = x ∧ d[i]? = some b := by
  cases m with
  | none => simp [stored] at h
  | some x =>
    simp only [stored] at h
    split at h
    · rename_i d hd
      obtain ⟨d', e1, e2, _, _⟩ := hw.good _ _ hd
      cases e1
      exact ⟨x, d, rfl, hd, e2, h⟩
    · simp at h

/-- Flush in a state where only the chunks below `n` matter. -/
theorem flush_core {env : Env} {L : List Bytes} (hL : CollFree env.H L) (s : S) (c : Bytes)
    (hm : s.f.mode.w = true) (hcl : s.f.closed = false)
    (hw : WOK env s.w) (hmap : MapOK s.w s.f.mapping) (hn : s.f.chunks.keys.Nodup)
    (hc : ∀ id ch, s.f.chunks.get? id = some ch →
      (ch.clean = false → ∃ d, ch.data = some d ∧ d.length ≤ env.cs) ∧
      (id * env.cs ≤ c.length → COK env s.w (s.f.mapping.get? id) ch))
    (hsize : s.f.size = c.length) (hpos : s.f.pos ≤ c.length)
    (hcont : ∀ p, p < c.length → (view s (p / env.cs))[p % env.cs]? = c[p]?)
    (hlog : (s.flush env).2.w.log ⊆ L) :
    ∃ s', s.flush env = (.ok (), s') ∧ Rep env s' c ∧ ExtN s.f.name s.w s'.w ∧
      s'.f.pos = s.f.pos ∧ Same s.f s'.f ∧ OnDisk env s'.w s.f.name c ∧ s'.f.chunks = [] := by
  unfold S.flush at hlog ⊢
  have hcond : ¬ (s.f.mode.w = false ∨ s.f.closed = true) := by simp [hm, hcl]
  rw [if_neg hcond] at hlog ⊢
  have hlog' : (s.flushChunks env 0).2.w.log ⊆ L := by
    intro x hx; apply hlog
    revert hx
    cases s.flushChunks env 0 with
    | mk a b => cases a <;> exact id
  obtain ⟨s1, h1, h2, h3, h4, h5, h6⟩ :=
    flushAll_ok hL (fun id => id * env.cs ≤ c.length) s hw hmap hn hc hlog'
  rw [h1]
  have hcont' : ∀ p, p < c.length →
      (stored s1.w (s1.f.mapping.get? (p / env.cs)))[p % env.cs]? = c[p]? := by
    intro p hp
    rw [h6 (p / env.cs) (by have := Nat.div_mul_le_self p env.cs; omega)]
    exact hcont p hp
  have hname : s1.f.name = s.f.name := by rw [h5]
  have hsz : s1.f.size = s.f.size := by rw [h5]
  refine ⟨_, rfl, ⟨⟨⟨h2.good, h2.seen⟩, ?_, h4, ?_⟩, ?_, ?_, ?_⟩, ⟨h3.chunks, ?_, h3.force⟩, ?_,
    ⟨?_, ?_, ?_⟩, ?_, ?_⟩
  · show s1.f.chunks.keys.Nodup; rw [h5]; simp [Dict.keys]
  · intro id ch h
    have : s1.f.chunks = [] := by rw [h5]
    change s1.f.chunks.get? id = some ch at h
    rw [this] at h; simp at h
  · show s1.f.size = _; rw [hsz, hsize]
  · show s1.f.pos ≤ _; rw [h5]; exact hpos
  · intro p hp
    have : s1.f.chunks = [] := by rw [h5]
    have hv : view ⟨s1.f, { s1.w with metas := s1.w.metas.set s1.f.name (some ⟨s1.f.mapping, s1.f.size⟩) }⟩ (p / env.cs) =
        stored s1.w (s1.f.mapping.get? (p / env.cs)) := by
      simp only [view, this, Dict.get?_nil]
      rfl
    show (view ⟨s1.f, { s1.w with metas := s1.w.metas.set s1.f.name (some ⟨s1.f.mapping, s1.f.size⟩) }⟩ (p / env.cs))[p % env.cs]? = _
    rw [hv]; exact hcont' p hp
  · intro n hne
    show (s1.w.metas.set s1.f.name _).get? n = _
    rw [hname, Dict.get?_set_ne _ _ hne, h3.metas]
  · show s1.f.pos = _; rw [h5]
  · exact hname
  · show s1.f.mode = _; rw [h5]
  · show s1.f.closed = _; rw [h5]
  · refine ⟨⟨s1.f.mapping, s1.f.size⟩, ?_, ?_, ?_, ?_⟩
    · show (s1.w.metas.set s1.f.name _).get? _ = _
      rw [hname]; simp
    · show s1.f.size = _; rw [hsz, hsize]
    · exact h4
    · intro p hp
      have hb := hcont' p hp
      rw [List.getElem?_eq_getElem hp] at hb
      obtain ⟨x, d, e1, e2, e3, e4⟩ := stored_some h2 hb
      exact ⟨x, d, e1, e2, e3, by rw [e4, List.getElem?_eq_getElem hp]⟩
  · show s1.f.chunks = _; rw [h5]

theorem flush_ok {env : Env} {L : List Bytes} (hL : CollFree env.H L) {s : S} {c : Bytes}
    (hr : Rep env s c) (hm : s.f.mode.w = true) (hcl : s.f.closed = false)
    (hlog : (s.flush env).2.w.log ⊆ L) :
    ∃ s', s.flush env = (.ok (), s') ∧ Rep env s' c ∧ ExtN s.f.name s.w s'.w ∧
      s'.f.pos = s.f.pos ∧ Same s.f s'.f ∧ OnDisk env s'.w s.f.name c ∧ s'.f.chunks = [] :=
  flush_core hL s c hm hcl hr.base.wok hr.base.mapok hr.base.nodup
    (fun id ch h => ⟨(hr.base.cok id ch h).dirty, fun _ => hr.base.cok id ch h⟩)
    hr.size hr.pos hr.cont hlog

/-- `truncate(n)` for `position ≤ n ≤ size`. -/
theorem truncate_ok {env : Env} {L : List Bytes} (hL : CollFree env.H L) {s : S} {c : Bytes}
    (hr : Rep env s c) (hm : s.f.mode.w = true) (hcl : s.f.closed = false) (sz : Option Nat)
    (hn1 : s.f.pos ≤ sz.getD s.f.pos) (hn2 : sz.getD s.f.pos ≤ c.length)
    (hlog : (s.truncate env sz).2.w.log ⊆ L) :
    ∃ s', s.truncate env sz = (.ok (), s') ∧ Rep env s' (c.take (sz.getD s.f.pos)) ∧
      ExtN s.f.name s.w s'.w ∧
      s'.f.pos = s.f.pos ∧ Same s.f s'.f ∧ OnDisk env s'.w s.f.name (c.take (sz.getD s.f.pos)) := by
  unfold S.truncate at hlog ⊢
  have hcond : ¬ (s.f.mode.w = false ∨ s.f.closed = true) := by simp [hm, hcl]
  rw [if_neg hcond] at hlog ⊢
  dsimp only at hlog ⊢
  generalize sz.getD s.f.pos = n at *
  have hlen : (c.take n).length = n := by simp; omega
  have hgf : ∀ id, Dict.get? (s.f.mapping.filter (fun e => decide (¬ e.1 * env.cs > n))) id =
      if id * env.cs > n then none else s.f.mapping.get? id := by
    intro id
    rw [Dict.get?_filter s.f.mapping (fun a => decide (¬ a * env.cs > n)) id]
    by_cases h : id * env.cs > n
    · simp only [h, not_true_eq_false, decide_false, if_true, if_false, Bool.false_eq_true]
    · simp only [h, not_false_eq_true, decide_true, if_true, if_false]
  have hmo : MapOK s.w (s.f.mapping.filter (fun e => decide (¬ e.1 * env.cs > n))) := by
    intro h hh
    obtain ⟨e, he, rfl⟩ := List.mem_map.1 hh
    exact hr.base.mapok _ (List.mem_map.2 ⟨e, (List.mem_filter.1 he).1, rfl⟩)
  obtain ⟨s', e1, e2, e3, e4, e5, e6, _⟩ := flush_core hL
    { s with f := { s.f with size := n, mapping := s.f.mapping.filter (fun e => decide (¬ e.1 * env.cs > n)) } }
    (c.take n) hm hcl hr.base.wok hmo hr.base.nodup
    (by
      intro id ch h
      refine ⟨(hr.base.cok id ch h).dirty, fun hP => ?_⟩
      rw [hlen] at hP
      show COK env s.w (Dict.get? (s.f.mapping.filter _) id) ch
      rw [hgf, if_neg (by omega)]
      exact hr.base.cok id ch h)
    hlen.symm (by rw [hlen]; exact hn1)
    (by
      intro p hp
      rw [hlen] at hp
      have hle := Nat.div_mul_le_self p env.cs
      have hv : view { s with f := { s.f with size := n, mapping := s.f.mapping.filter (fun e => decide (¬ e.1 * env.cs > n)) } } (p / env.cs) = view s (p / env.cs) := by
        unfold view
        dsimp only
        rw [hgf, if_neg (by omega)]
      rw [hv, hr.cont p (by omega), List.getElem?_take, if_pos hp])
    hlog
  exact ⟨s', e1, e2, e3, e4, ⟨e5.name, e5.mode, e5.closed⟩, e6⟩

theorem write_ok {env : Env} {L : List Bytes} (hL : CollFree env.H L) {s : S} {c : Bytes}
    (hr : Rep env s c) (hm : s.f.mode.w = true) (hcl : s.f.closed = false) (d : Bytes)
    (hlog : (s.write env d).2.w.log ⊆ L) :
    ∃ s', s.write env d = (.ok (), s') ∧ Rep env s' (writeAt c s.f.pos d) ∧ Ext s.w s'.w ∧
      s'.f.pos = s.f.pos + d.length ∧ Same s.f s'.f := by
  unfold S.write at hlog ⊢
  have hcond : ¬ (s.f.mode.w = false ∨ s.f.closed = true) := by simp [hm, hcl]
  rw [if_neg hcond] at hlog ⊢
  exact writeLoop_ok hL _ d s c rfl hr hlog

theorem fill_ok {env : Env} {L : List Bytes} (hL : CollFree env.H L) (n : Nat) :
    ∀ (s : S) (c : Bytes), Rep env s c → s.f.mode.w = true → s.f.closed = false →
      s.f.pos = c.length → (s.fill env n).2.w.log ⊆ L →
      ∃ s', s.fill env n = (.ok (), s') ∧ Rep env s' (c ++ zeros n) ∧ Ext s.w s'.w ∧
        s'.f.pos = c.length + n ∧ Same s.f s'.f := by
  induction n using Nat.strongRecOn with
  | _ n ih =>
    intro s c hr hm hcl hp hlog
    by_cases hn : n = 0
    · subst hn
      have : s.fill env 0 = (.ok (), s) := by rw [S.fill]; simp
      rw [this]
      exact ⟨s, rfl, by simpa [zeros] using hr, Ext.refl _, by simp [hp], Same.refl _⟩
    · have hbp := env.blk_pos
      have hlw : (s.write env (zeros (min n env.blk))).2.w.log ⊆ L := by
        intro x hx; apply hlog
        rw [S.fill, dif_neg hn]
        revert hx
        dsimp only
        cases s.write env (zeros (min n env.blk)) with
        | mk a b =>
          cases a with
          | error e => exact id
          | ok u => exact fun hx => S.fill_log env _ _ hx
      obtain ⟨s1, h1, h2, h3, h4, h5⟩ := write_ok hL hr hm hcl (zeros (min n env.blk)) hlw
      have heq : s.fill env n = s1.fill env (n - min n env.blk) := by
        conv => lhs; rw [S.fill, dif_neg hn]
        dsimp only; rw [h1]
      rw [heq] at hlog ⊢
      rw [hp, writeAt_end] at h2
      obtain ⟨s2, e1, e2, e3, e4, e5⟩ := ih (n - min n env.blk) (by omega) s1 _ h2
        (by rw [h5.mode]; exact hm) (by rw [h5.closed]; exact hcl) (by rw [h4, hp]; simp) hlog
      refine ⟨s2, e1, ?_, h3.trans e3, ?_, h5.trans e5⟩
      · rw [List.append_assoc, zeros_append] at e2
        rwa [show min n env.blk + (n - min n env.blk) = n by omega] at e2
      · rw [e4]; simp; omega

theorem fill_readonly {env : Env} {s : S} (hm : s.f.mode.w = false) {n : Nat} (hn : n ≠ 0) :
    s.fill env n = (.error .assertion, s) := by
  rw [S.fill, dif_neg hn]
  simp [S.write, hm]

/-- The step theorem: one operation on the chunked file behaves as on the flat file, stays coupled
and does not disturb anything else on disk. -/
theorem step_ok {env : Env} {L : List Bytes} (hL : CollFree env.H L) {s : S} {fl : Flat}
    (h : R env s fl) (op : Op) (hlog : (s.step env op).1.w.log ⊆ L) :
    R env (s.step env op).1 (fl.step op).1 ∧ (s.step env op).2 = (fl.step op).2 ∧
      ExtN s.f.name s.w (s.step env op).1.w ∧ (s.step env op).1.f.name = s.f.name := by
  cases op with
  | seek o wh =>
    show R env (s.seek env o wh).2 _ ∧ (outOf .nat (s.seek env o wh)).2 = _ ∧
      ExtN s.f.name s.w (s.seek env o wh).2.w ∧ (s.seek env o wh).2.f.name = s.f.name
    change (s.seek env o wh).2.w.log ⊆ L at hlog
    by_cases hcl : s.f.closed = true
    · have h1 : s.seek env o wh = (.error .assertion, s) := by simp [S.seek, hcl]
      have h2 : fl.step (.seek o wh) = (fl, .error .assertion) := by
        simp [Flat.step, ← h.closed, hcl]
      rw [h1, h2]
      exact ⟨h, rfl, ExtN.refl _ _, rfl⟩
    · have hcl' : s.f.closed = false := by simpa using hcl
      have hfc : fl.closed = false := by rw [← h.closed]; exact hcl'
      have ht : s.f.seekTarget o wh = match fl.target o wh with
          | none => .error .value
          | some t => .ok t := by
        cases wh <;> simp [File.seekTarget, Flat.target, h.rep.size, h.pos]
      have hstep : fl.step (.seek o wh) = (match fl.target o wh with
          | none => (fl, .error .value)
          | some t =>
            if t < 0 then (fl, .error .value)
            else if t.toNat ≤ fl.content.length then ({ fl with pos := t.toNat }, .ok (.nat t.toNat))
            else if fl.writable then
              ({ fl with pos := t.toNat, content := fl.content ++ zeros (t.toNat - fl.content.length) },
                .ok (.nat t.toNat))
            else ({ fl with pos := fl.content.length }, .error .assertion)) := by
        rw [Flat.step, if_neg (by simp [hfc])]; rfl
      rw [hstep]
      cases htt : fl.target o wh with
      | none =>
        have h1 : s.seek env o wh = (.error .value, s) := by
          rw [htt] at ht
          rw [S.seek, if_neg hcl, ht]
        rw [h1]
        exact ⟨h, rfl, ExtN.refl _ _, rfl⟩
      | some t =>
        rw [htt] at ht
        dsimp only at ht ⊢
        by_cases hneg : t < 0
        · rw [if_pos hneg]
          have h1 : s.seek env o wh = (.error .value, s) := by
            rw [S.seek, if_neg hcl, ht]; dsimp only; rw [if_pos hneg]
          rw [h1]
          exact ⟨h, rfl, ExtN.refl _ _, rfl⟩
        · rw [if_neg hneg]
          by_cases hle : t.toNat ≤ fl.content.length
          · rw [if_pos hle]
            have hgt : ¬ t.toNat > s.f.size := by rw [h.rep.size]; omega
            have h1 : s.seek env o wh = (.ok t.toNat, { s with f := { s.f with pos := t.toNat } }) := by
              rw [S.seek, if_neg hcl, ht]; dsimp only; rw [if_neg hneg, if_neg hgt]
            rw [h1]
            exact ⟨⟨⟨⟨h.rep.base.wok, h.rep.base.nodup, h.rep.base.mapok, h.rep.base.cok⟩,
              h.rep.size, hle, h.rep.cont⟩, rfl, h.r, h.w, h.closed⟩, rfl, ExtN.refl _ _, rfl⟩
          · rw [if_neg hle]
            have hgt : t.toNat > s.f.size := by rw [h.rep.size]; omega
            have hrep0 : Rep env ⟨{ s.f with pos := s.f.size }, s.w⟩ fl.content :=
              ⟨⟨h.rep.base.wok, h.rep.base.nodup, h.rep.base.mapok, h.rep.base.cok⟩,
                h.rep.size, by show s.f.size ≤ _; rw [h.rep.size]; omega, h.rep.cont⟩
            have h0 : s.seek env o wh =
                match S.fill env ⟨{ s.f with pos := s.f.size }, s.w⟩ (t.toNat - s.f.size) with
                | (.error e, s) => (.error e, s)
                | (.ok (), s) =>
                  if s.f.pos = t.toNat ∧ s.f.size = t.toNat then (.ok t.toNat, s)
                  else (.error .assertion, s) := by
              rw [S.seek, if_neg hcl, ht]; dsimp only; rw [if_neg hneg, if_pos hgt]; rfl
            rw [h0] at hlog ⊢
            by_cases hwr : s.f.mode.w = true
            · have hfw : fl.writable = true := by rw [← h.w]; exact hwr
              rw [if_pos hfw]
              have hlf : (S.fill env ⟨{ s.f with pos := s.f.size }, s.w⟩
                  (t.toNat - s.f.size)).2.w.log ⊆ L := by
                intro x hx; apply hlog
                revert hx
                cases S.fill env ⟨{ s.f with pos := s.f.size }, s.w⟩ (t.toNat - s.f.size) with
                | mk a b =>
                  cases a with
                  | error e => exact id
                  | ok u =>
                    dsimp only
                    intro hx
                    split <;> exact hx
              obtain ⟨s1, e1, e2, e3, e4, e5⟩ := fill_ok hL (t.toNat - s.f.size) _ _ hrep0 hwr hcl'
                (by show s.f.size = _; exact h.rep.size) hlf
              rw [e1]
              dsimp only
              have hp : s1.f.pos = t.toNat := by
                rw [e4, ← h.rep.size]; omega
              have hs : s1.f.size = t.toNat := by
                rw [e2.size, List.length_append, zeros_length, ← h.rep.size]; omega
              rw [if_pos ⟨hp, hs⟩]
              rw [h.rep.size] at e2
              refine ⟨⟨e2, hp, ?_, ?_, ?_⟩, rfl, e3.toN _, e5.name⟩
              · rw [e5.mode]; exact h.r
              · rw [e5.mode]; exact h.w
              · rw [e5.closed]; exact h.closed
            · have hwf : s.f.mode.w = false := by simpa using hwr
              have hfw : ¬ fl.writable = true := by rw [← h.w]; exact hwr
              rw [if_neg hfw]
              rw [fill_readonly (s := ⟨{ s.f with pos := s.f.size }, s.w⟩) hwf (by omega)]
              exact ⟨⟨hrep0, h.rep.size, h.r, h.w, h.closed⟩, rfl, ExtN.refl _ _, rfl⟩
  | write d =>
    show R env (s.write env d).2 _ ∧ (outOf (fun _ => Out.unit) (s.write env d)).2 = _ ∧
      ExtN s.f.name s.w (s.write env d).2.w ∧ (s.write env d).2.f.name = s.f.name
    change (s.write env d).2.w.log ⊆ L at hlog
    by_cases hc : s.f.mode.w = false ∨ s.f.closed = true
    · have h1 : s.write env d = (.error .assertion, s) := by simp [S.write, hc]
      have h2 : fl.step (.write d) = (fl, .error .assertion) := by
        rw [h.w, h.closed] at hc
        simp only [Flat.step]
        rw [if_pos (by rcases hc with hc | hc <;> simp [hc])]
      rw [h1, h2]
      exact ⟨h, rfl, ExtN.refl _ _, rfl⟩
    · have hm : s.f.mode.w = true := by simpa using fun hh => hc (.inl hh)
      have hcl : s.f.closed = false := by simpa using fun hh => hc (.inr hh)
      obtain ⟨s1, e1, e2, e3, e4, e5⟩ := write_ok hL h.rep hm hcl d hlog
      have h2 : fl.step (.write d) = ({ fl with pos := fl.pos + d.length, content := fl.content.take fl.pos ++ d ++ fl.content.drop (fl.pos + d.length) }, .ok .unit) := by
        simp only [Flat.step]
        rw [if_neg (by rw [← h.w, ← h.closed, hm, hcl]; simp)]
      rw [e1, h2]
      have hpl : fl.pos ≤ fl.content.length := by rw [← h.pos]; exact h.rep.pos
      rw [h.pos, writeAt_eq_splice _ _ _ hpl] at e2
      exact ⟨e5.R h e2 (by rw [e4, h.pos]), rfl, e3.toN _, e5.name⟩
  | read n =>
    show R env (s.read env (readArg n)).2 _ ∧ (outOf .bytes (s.read env (readArg n))).2 = _ ∧
      ExtN s.f.name s.w (s.read env (readArg n)).2.w ∧ (s.read env (readArg n)).2.f.name = s.f.name
    change (s.read env (readArg n)).2.w.log ⊆ L at hlog
    by_cases hc : s.f.mode.r = false ∨ s.f.closed = true
    · have h1 : ∀ k, s.read env k = (.error .assertion, s) := by intro k; simp [S.read, hc]
      have h2 : fl.step (.read n) = (fl, .error .assertion) := by
        rw [h.r, h.closed] at hc
        simp only [Flat.step]
        rw [if_pos (by rcases hc with hc | hc <;> simp [hc])]
      rw [h1, h2]
      exact ⟨h, rfl, ExtN.refl _ _, rfl⟩
    · have hm : s.f.mode.r = true := by simpa using fun hh => hc (.inl hh)
      have hcl : s.f.closed = false := by simpa using fun hh => hc (.inr hh)
      have hpl : s.f.pos ≤ fl.content.length := h.rep.pos
      -- number of bytes to read
      obtain ⟨k, hk, hkd, hkl⟩ : ∃ k : Nat,
          (let maxSize : Int := (s.f.size : Int) - s.f.pos
           (if readArg n = -1 then maxSize else min (readArg n) maxSize) = (k : Int)) ∧
          upTo n (fl.content.drop fl.pos) = (fl.content.drop fl.pos).take k ∧
          s.f.pos + k ≤ fl.content.length := by
        cases n with
        | none =>
          refine ⟨fl.content.length - s.f.pos, ?_, ?_, by omega⟩
          · simp [readArg, h.rep.size]; omega
          · rw [← h.pos, List.take_of_length_le (by simp)]; rfl
        | some n =>
          refine ⟨min n (fl.content.length - s.f.pos), ?_, ?_, by omega⟩
          · dsimp only
            rw [if_neg (by simp only [readArg]; omega), h.rep.size]
            simp only [readArg]; omega
          · simp only [upTo]
            rw [← h.pos, List.take_eq_take_iff]
            simp
      have hrd : s.read env (readArg n) =
          s.readLoop env (k + s.f.mapping.length + s.f.chunks.length + 2) (k : Int) [] := by
        unfold S.read
        rw [if_neg (by simp [hm, hcl])]
        dsimp only at hk ⊢
        rw [hk, Int.toNat_natCast]
      rw [hrd] at hlog ⊢
      obtain ⟨s1, e1, e2, e3, e4, e5⟩ := readLoop_ok hL _ k s _ [] (by omega) h.rep hkl hlog
      have h2 : fl.step (.read n) = ({ fl with pos := fl.pos + k }, .ok (.bytes ((fl.content.drop fl.pos).take k))) := by
        simp only [Flat.step]
        rw [if_neg (by rw [← h.r, ← h.closed, hm, hcl]; simp), hkd]
        have : ((fl.content.drop fl.pos).take k).length = k := by
          rw [h.pos] at hkl; simp; omega
        rw [this]
      rw [e1, h2]
      refine ⟨e5.R h e2 (by rw [e4, h.pos]), ?_, e3.toN _, e5.name⟩
      simp [outOf, h.pos]
  | truncate =>
    show R env (s.truncate env none).2 _ ∧ (outOf (fun _ => Out.unit) (s.truncate env none)).2 = _ ∧
      ExtN s.f.name s.w (s.truncate env none).2.w ∧ (s.truncate env none).2.f.name = s.f.name
    change (s.truncate env none).2.w.log ⊆ L at hlog
    by_cases hc : s.f.mode.w = false ∨ s.f.closed = true
    · have h1 : s.truncate env none = (.error .assertion, s) := by simp [S.truncate, hc]
      have h2 : fl.step .truncate = (fl, .error .assertion) := by
        rw [h.w, h.closed] at hc
        simp only [Flat.step]
        rw [if_pos (by rcases hc with hc | hc <;> simp [hc])]
      rw [h1, h2]
      exact ⟨h, rfl, ExtN.refl _ _, rfl⟩
    · have hm : s.f.mode.w = true := by simpa using fun hh => hc (.inl hh)
      have hcl : s.f.closed = false := by simpa using fun hh => hc (.inr hh)
      obtain ⟨s1, e1, e2, e3, e4, e5, _⟩ := truncate_ok hL h.rep hm hcl none (by simp)
        (by simpa using h.rep.pos) hlog
      have h2 : fl.step .truncate = ({ fl with content := fl.content.take fl.pos }, .ok .unit) := by
        simp only [Flat.step]
        rw [if_neg (by rw [← h.w, ← h.closed, hm, hcl]; simp)]
      rw [e1, h2]
      simp only [Option.getD_none, h.pos] at e2
      exact ⟨e5.R h e2 (by rw [e4, h.pos]), rfl, e3, e5.name⟩
  | flush =>
    show R env (s.flush env).2 _ ∧ (outOf (fun _ => Out.unit) (s.flush env)).2 = _ ∧
      ExtN s.f.name s.w (s.flush env).2.w ∧ (s.flush env).2.f.name = s.f.name
    change (s.flush env).2.w.log ⊆ L at hlog
    by_cases hc : s.f.mode.w = false ∨ s.f.closed = true
    · have h1 : s.flush env = (.error .assertion, s) := by simp [S.flush, hc]
      have h2 : fl.step .flush = (fl, .error .assertion) := by
        rw [h.w, h.closed] at hc
        simp only [Flat.step]
        rw [if_pos (by rcases hc with hc | hc <;> simp [hc])]
      rw [h1, h2]
      exact ⟨h, rfl, ExtN.refl _ _, rfl⟩
    · have hm : s.f.mode.w = true := by simpa using fun hh => hc (.inl hh)
      have hcl : s.f.closed = false := by simpa using fun hh => hc (.inr hh)
      obtain ⟨s1, e1, e2, e3, e4, e5, _⟩ := flush_ok hL h.rep hm hcl hlog
      have h2 : fl.step .flush = (fl, .ok .unit) := by
        simp only [Flat.step]
        rw [if_neg (by rw [← h.w, ← h.closed, hm, hcl]; simp)]
      rw [e1, h2]
      exact ⟨e5.R h e2 (by rw [e4, h.pos]), rfl, e3, e5.name⟩
  | tell =>
    show R env s.tell.2 _ ∧ (outOf .nat s.tell).2 = _ ∧
      ExtN s.f.name s.w s.tell.2.w ∧ s.tell.2.f.name = s.f.name
    by_cases hc : s.f.closed = true
    · have h2 : fl.step .tell = (fl, .error .assertion) := by
        simp [Flat.step, ← h.closed, hc]
      have h1 : s.tell = (.error .assertion, s) := by simp [S.tell, hc]
      rw [h1, h2]
      exact ⟨h, rfl, ExtN.refl _ _, rfl⟩
    · have hc' : s.f.closed = false := by simpa using hc
      have h2 : fl.step .tell = (fl, .ok (.nat fl.pos)) := by
        simp [Flat.step, ← h.closed, hc']
      have h1 : s.tell = (.ok s.f.pos, s) := by simp [S.tell, hc']
      rw [h1, h2]
      exact ⟨h, by simp [outOf, h.pos], ExtN.refl _ _, rfl⟩
  | close =>
    show R env (s.close env).2 _ ∧ (outOf (fun _ => Out.unit) (s.close env)).2 = _ ∧
      ExtN s.f.name s.w (s.close env).2.w ∧ (s.close env).2.f.name = s.f.name
    change (s.close env).2.w.log ⊆ L at hlog
    by_cases hc : s.f.closed = true
    · have h1 : s.close env = (.error .assertion, s) := by simp [S.close, hc]
      have h2 : fl.step .close = (fl, .error .assertion) := by
        simp [Flat.step, ← h.closed, hc]
      rw [h1, h2]
      exact ⟨h, rfl, ExtN.refl _ _, rfl⟩
    · have hcl : s.f.closed = false := by simpa using hc
      have h2 : fl.step .close = ({ fl with closed := true }, .ok .unit) := by
        simp [Flat.step, ← h.closed, hcl]
      rw [h2]
      unfold S.close at hlog ⊢
      rw [if_neg hc] at hlog ⊢
      by_cases hm : s.f.mode.w = true
      · rw [if_pos hm] at hlog ⊢
        have hlf : (s.flush env).2.w.log ⊆ L := by
          intro x hx; apply hlog
          revert hx
          cases s.flush env with
          | mk a b => cases a <;> exact id
        obtain ⟨s1, e1, e2, e3, e4, e5, _⟩ := flush_ok hL h.rep hm hcl hlf
        rw [e1]
        refine ⟨⟨⟨⟨e2.base.wok, e2.base.nodup, e2.base.mapok, e2.base.cok⟩, e2.size, e2.pos, e2.cont⟩,
          ?_, ?_, ?_, rfl⟩, rfl, e3, e5.name⟩
        · show s1.f.pos = _; rw [e4]; exact h.pos
        · show s1.f.mode.r = _; rw [e5.mode]; exact h.r
        · show s1.f.mode.w = _; rw [e5.mode]; exact h.w
      · rw [if_neg hm]
        exact ⟨⟨⟨⟨h.rep.base.wok, h.rep.base.nodup, h.rep.base.mapok, h.rep.base.cok⟩, h.rep.size,
          h.rep.pos, h.rep.cont⟩, h.pos, h.r, h.w, rfl⟩, rfl, ExtN.refl _ _, rfl⟩

end Verif.Chunked
