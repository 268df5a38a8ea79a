import Verif.Proofs.ChunkedInv
/-!
# Refinement of the chunked file to a flat byte list
-/
namespace Verif.Chunked
open Verif Verif.Spec

/-- The chunked file `s` represents the content `c`. -/
structure Rep (env : Env) (s : S) (c : Bytes) : Prop where
  base : Base env s
  size : s.f.size = c.length
  pos : s.f.pos ≤ c.length
  cont : ∀ p, p < c.length → (view s (p / env.cs))[p % env.cs]? = c[p]?

/-- Attributes that never change. -/
structure Same (f f' : File) : Prop where
  name : f'.name = f.name
  mode : f'.mode = f.mode
  closed : f'.closed = f.closed

theorem Same.refl (f : File) : Same f f := ⟨rfl, rfl, rfl⟩
theorem Same.trans {a b c : File} (h : Same a b) (h' : Same b c) : Same a c :=
  ⟨h'.name.trans h.name, h'.mode.trans h.mode, h'.closed.trans h.closed⟩

theorem readExisting_ok {env : Env} {s : S} (hb : Base env s) {id : Nat} {ch : Chunk}
    (hch : s.f.chunks.get? id = some ch) :
    ch.readExisting env s.w = .ok { ch with data := some (view s id) } := by
  have hv : view s id = cview s.w ch := by simp [view, hch]
  have hc := hb.cok id ch hch
  unfold Chunk.readExisting
  cases hd : ch.data with
  | some d =>
    dsimp only
    rw [hv]; simp only [cview, hd, Option.getD_some]
    rw [← hd]
  | none =>
    dsimp only
    have hcl : ch.clean = true := by
      cases h : ch.clean with
      | true => rfl
      | false => obtain ⟨d, h1, _⟩ := hc.dirty h; rw [hd] at h1; cases h1
    obtain ⟨h1, _⟩ := hc.clean hcl
    cases hh : ch.hash with
    | none => dsimp only; rw [hv]; simp [cview, hd, hh, stored]
    | some h =>
      dsimp only
      rw [hh] at h1
      obtain ⟨d, hg⟩ := hb.mapok.get id h h1.symm
      obtain ⟨d', e1, e2, _, _⟩ := hb.wok.good h _ hg
      cases e1
      rw [hg]
      dsimp only
      rw [if_pos e2, hv]
      simp [cview, hd, hh, stored, hg]

/-- Storing a dirty chunk with new data. -/
theorem Base.setDirty {env : Env} {s : S} (hb : Base env s) (id : Nat) (ch : Chunk) (d : Bytes)
    (hlen : d.length ≤ env.cs) (pos size : Nat) :
    let s' : S := { s with f := { s.f with
      chunks := s.f.chunks.set id { ch with data := some d, clean := false }, pos, size } }
    Base env s' ∧ ∀ i, view s' i = if i = id then d else view s i := by
  refine ⟨⟨hb.wok, Dict.nodup_set hb.nodup _ _, hb.mapok, ?_⟩, ?_⟩
  · intro i c hc
    dsimp only at hc
    rw [Dict.get?_set] at hc
    split at hc
    · cases hc
      exact ⟨fun _ => ⟨d, rfl, hlen⟩, by intro h; cases h⟩
    · exact hb.cok i c hc
  · intro i
    by_cases hi : i = id
    · subst hi; simp [view, cview]
    · simp [view, hi, Dict.get?_set_ne _ _ hi]

/-- Storing a chunk whose data has just been loaded. -/
theorem Base.setLoaded {env : Env} {s : S} (hb : Base env s) (id : Nat) (ch : Chunk)
    (hch : s.f.chunks.get? id = some ch) (pos : Nat) :
    let s' : S := { s with f := { s.f with
      chunks := s.f.chunks.set id { ch with data := some (view s id) }, pos } }
    Base env s' ∧ ∀ i, view s' i = view s i := by
  have hv : view s id = cview s.w ch := by simp [view, hch]
  have hc0 := hb.cok id ch hch
  refine ⟨⟨hb.wok, Dict.nodup_set hb.nodup _ _, hb.mapok, ?_⟩, ?_⟩
  · intro i c hc
    dsimp only at hc
    rw [Dict.get?_set] at hc
    split at hc
    · rename_i hi; subst hi
      cases hc
      refine ⟨fun h => ⟨_, rfl, view_length hb i⟩, fun h => ?_⟩
      refine ⟨(hc0.clean h).1, .inr ?_⟩
      show some (view s i) = _
      rw [hv, hc0.view h]
    · exact hb.cok i c hc
  · intro i
    by_cases hi : i = id
    · subst hi; simp [view, cview, hch]
    · simp [view, Dict.get?_set_ne _ _ hi]

theorem div_mod_same {cs p id : Nat} (hcs : 0 < cs) (h : p / cs = id) : p = id * cs + p % cs := by
  subst h
  have := Nat.div_add_mod p cs
  rw [Nat.mul_comm] at this; exact this.symm

/-- Effect of one chunk write on the represented content. -/
theorem cont_write {env : Env} {v : Nat → Bytes} {v' : Nat → Bytes} {c d : Bytes} {pos : Nat}
    (hd : d ≠ []) (hpos : pos ≤ c.length)
    (hfit : pos % env.cs + d.length ≤ env.cs)
    (hcont : ∀ p, p < c.length → (v (p / env.cs))[p % env.cs]? = c[p]?)
    (hv' : ∀ i, v' i = if i = pos / env.cs then writeAt (v i) (pos % env.cs) d else v i) :
    ∀ p, p < (writeAt c pos d).length → (v' (p / env.cs))[p % env.cs]? = (writeAt c pos d)[p]? := by
  intro p hp
  rw [writeAt_length, if_neg hd] at hp
  rw [getElem?_writeAt, if_neg hd, hv']
  have hdl : 0 < d.length := List.length_pos_iff.2 hd
  have hcs := env.cs_pos
  have epos := div_mod_same hcs (rfl : pos / env.cs = pos / env.cs)
  have ep := div_mod_same hcs (rfl : p / env.cs = p / env.cs)
  have hml : p % env.cs < env.cs := Nat.mod_lt _ hcs
  generalize hid : pos / env.cs = id at *
  generalize hpd : p / env.cs = ip at *
  generalize hpo : pos % env.cs = off at *
  generalize hpm : p % env.cs = pm at *
  have key : ip = id ∨ ip + 1 ≤ id ∨ id + 1 ≤ ip := by omega
  rcases key with heq | hlt | hgt
  · -- same chunk
    subst heq
    simp only [if_true]
    rw [getElem?_writeAt, if_neg hd]
    by_cases h1 : p < pos
    · have h1' : pm < off := by omega
      have hpc : p < c.length := by omega
      simp only [h1, h1', hpc, if_true]
      have := hcont p hpc
      rw [hpd, hpm] at this
      have hlt : pm < (v ip).length := by
        have h2 : (v ip)[pm]? ≠ none := by
          rw [this]; simp [List.getElem?_eq_none_iff]; omega
        simpa [List.getElem?_eq_none_iff] using h2
      simp only [hlt, if_true]
      exact this
    · have h1' : ¬ pm < off := by omega
      simp only [h1, h1', if_false]
      by_cases h2 : p < pos + d.length
      · have h2' : pm < off + d.length := by omega
        simp only [h2, h2', if_true]
        congr 1; omega
      · have h2' : ¬ pm < off + d.length := by omega
        simp only [h2, h2', if_false]
        have hpc : p < c.length := by omega
        have := hcont p hpc
        rw [hpd, hpm] at this
        exact this
  · have hmul : (ip + 1) * env.cs ≤ id * env.cs := Nat.mul_le_mul_right _ hlt
    rw [Nat.add_mul, Nat.one_mul] at hmul
    have h1 : p < pos := by omega
    have hpc : p < c.length := by omega
    rw [if_neg (by omega), if_pos h1, if_pos hpc]
    have := hcont p hpc
    rw [hpd, hpm] at this; exact this
  · have hmul : (id + 1) * env.cs ≤ ip * env.cs := Nat.mul_le_mul_right _ hgt
    rw [Nat.add_mul, Nat.one_mul] at hmul
    have h1 : ¬ p < pos := by omega
    have h2 : ¬ p < pos + d.length := by omega
    have hpc : p < c.length := by omega
    rw [if_neg (by omega), if_neg h1, if_neg h2]
    have := hcont p hpc
    rw [hpd, hpm] at this; exact this

/-- `Chunk.write` in a good state. -/
theorem chunkWrite_ok {env : Env} {s : S} (hb : Base env s) {id : Nat} {ch : Chunk}
    (hch : s.f.chunks.get? id = some ch) (off : Nat) (data : Bytes)
    (hne : data ≠ []) (hoff : off < env.cs) :
    ch.write env s.w off data = .ok ((data.take (env.cs - off)).length, data.drop (env.cs - off),
      { ch with data := some (writeAt (view s id) off (data.take (env.cs - off))), clean := false }) := by
  unfold Chunk.write
  dsimp only
  have hne' : data.take (env.cs - off) ≠ [] := by
    intro h
    have := congrArg List.length h
    have h2 : 0 < data.length := List.length_pos_iff.2 hne
    rw [List.length_take, List.length_nil] at this; omega
  split
  · rename_i hfull
    obtain ⟨h0, hl⟩ := hfull
    subst h0
    congr 4
    have hvl := view_length hb id
    unfold writeAt
    rw [if_neg hne']
    rw [hl]
    simp [zeros, List.drop_eq_nil_of_le hvl]
  · rw [readExisting_ok hb hch]

theorem writeLoop_ok {env : Env} {L : List Bytes} (hL : CollFree env.H L) (n : Nat) :
    ∀ (data : Bytes) (s : S) (c : Bytes), data.length = n → Rep env s c →
      (s.writeLoop env data).2.w.log ⊆ L →
      ∃ s', s.writeLoop env data = (.ok (), s') ∧ Rep env s' (writeAt c s.f.pos data) ∧
        Ext s.w s'.w ∧ s'.f.pos = s.f.pos + data.length ∧ Same s.f s'.f := by
  induction n using Nat.strongRecOn with
  | _ n ih =>
    intro data s c hn hr hlog
    by_cases hd : data = []
    · subst hd
      have : s.writeLoop env [] = (.ok (), s) := by rw [S.writeLoop]; simp
      rw [this]
      exact ⟨s, rfl, by simpa [writeAt] using hr, Ext.refl _, by simp, Same.refl _⟩
    · have hcl : (s.currentChunk env).2.w.log ⊆ L := by
        intro x hx
        apply hlog
        rw [S.writeLoop, if_neg hd]
        revert hx
        cases hcc : s.currentChunk env with
        | mk a b =>
          cases a with
          | error e => exact id
          | ok p =>
            obtain ⟨i, o⟩ := p
            dsimp only
            intro hx
            split
            · exact hx
            · split
              · exact hx
              · split
                · exact S.writeLoop_log env _ _ hx
                · exact hx
      obtain ⟨s1, ch, h1, hb1, he1, hf1, hv1, hch⟩ := currentChunk_ok hL s hr.base hcl
      have hoff : s.f.pos % env.cs < env.cs := Nat.mod_lt _ env.cs_pos
      have hw := chunkWrite_ok hb1 hch (s.f.pos % env.cs) data hd hoff
      have hdl : 0 < data.length := List.length_pos_iff.2 hd
      have hlt : (data.drop (env.cs - s.f.pos % env.cs)).length < data.length := by
        rw [List.length_drop]; omega
      have heq : s.writeLoop env data = S.writeLoop env { s1 with f := { s1.f with
          chunks := s1.f.chunks.set (s.f.pos / env.cs)
            { ch with data := some (writeAt (view s1 (s.f.pos / env.cs)) (s.f.pos % env.cs)
                (data.take (env.cs - s.f.pos % env.cs))), clean := false },
          pos := s1.f.pos + (data.take (env.cs - s.f.pos % env.cs)).length,
          size := max s1.f.size (s1.f.pos + (data.take (env.cs - s.f.pos % env.cs)).length) } }
          (data.drop (env.cs - s.f.pos % env.cs)) := by
        conv => lhs; rw [S.writeLoop]
        rw [if_neg hd, h1]
        dsimp only
        rw [hch]
        dsimp only
        rw [hw]
        dsimp only
        rw [dif_pos hlt]
      rw [heq] at hlog ⊢
      have hp1 : s1.f.pos = s.f.pos := by rw [hf1]
      have hs1 : s1.f.size = s.f.size := by rw [hf1]
      have hne' : data.take (env.cs - s.f.pos % env.cs) ≠ [] := by
        intro h
        have := congrArg List.length h
        rw [List.length_take, List.length_nil] at this; omega
      have htl : (data.take (env.cs - s.f.pos % env.cs)).length ≤ env.cs - s.f.pos % env.cs := by
        simp; omega
      have hfit : s.f.pos % env.cs + (data.take (env.cs - s.f.pos % env.cs)).length ≤ env.cs := by
        omega
      have hrest : (data.drop (env.cs - s.f.pos % env.cs)).length =
          data.length - (data.take (env.cs - s.f.pos % env.cs)).length := by simp; omega
      have hsum : (data.take (env.cs - s.f.pos % env.cs)).length ≤ data.length := by simp; omega
      have hwl : (writeAt (view s1 (s.f.pos / env.cs)) (s.f.pos % env.cs)
                (data.take (env.cs - s.f.pos % env.cs))).length ≤ env.cs := by
        rw [writeAt_length, if_neg hne']
        have := view_length hb1 (s.f.pos / env.cs)
        omega
      have hsd := Base.setDirty hb1 (s.f.pos / env.cs) ch _ hwl
        (s1.f.pos + (data.take (env.cs - s.f.pos % env.cs)).length)
        (max s1.f.size (s1.f.pos + (data.take (env.cs - s.f.pos % env.cs)).length))
      dsimp only at hsd
      obtain ⟨hb2, hv2⟩ := hsd
      have hcw := cont_write (env := env) (v := view s) (c := c) (pos := s.f.pos) hne'
        hr.pos hfit hr.cont
        (v' := view _) (fun i => by
          rw [hv2 i]
          by_cases hi : i = s.f.pos / env.cs
          · subst hi; simp only [if_true]; rw [hv1]
          · simp only [hi, if_false]; rw [hv1])
      have hr2 : Rep env { s1 with f := { s1.f with
          chunks := s1.f.chunks.set (s.f.pos / env.cs)
            { ch with data := some (writeAt (view s1 (s.f.pos / env.cs)) (s.f.pos % env.cs)
                (data.take (env.cs - s.f.pos % env.cs))), clean := false },
          pos := s1.f.pos + (data.take (env.cs - s.f.pos % env.cs)).length,
          size := max s1.f.size (s1.f.pos + (data.take (env.cs - s.f.pos % env.cs)).length) } }
          (writeAt c s.f.pos (data.take (env.cs - s.f.pos % env.cs))) := by
        refine ⟨hb2, ?_, ?_, hcw⟩
        · show max s1.f.size _ = _
          rw [writeAt_length, if_neg hne', hp1, hs1, hr.size]
        · show s1.f.pos + _ ≤ _
          rw [writeAt_length, if_neg hne', hp1]
          omega
      obtain ⟨s', e1, e2, e3, e4, e5⟩ := ih _ (by rw [← hn]; exact hlt) _ _ _ rfl hr2 hlog
      refine ⟨s', e1, ?_, he1.trans e3, ?_, ?_⟩
      · rw [show s1.f.pos = s.f.pos from hp1] at e2
        rw [writeAt_append, List.take_append_drop] at e2
        exact e2
      · rw [e4]
        show s1.f.pos + _ + _ = _
        rw [hp1, hrest]; omega
      · refine Same.trans ⟨?_, ?_, ?_⟩ e5
        · show s1.f.name = _; rw [hf1]
        · show s1.f.mode = _; rw [hf1]
        · show s1.f.closed = _; rw [hf1]

/-- Bytes read from one chunk are the content at the position. -/
theorem cont_read {env : Env} {v : Nat → Bytes} {c : Bytes} {pos k : Nat}
    (hvl : (v (pos / env.cs)).length ≤ env.cs)
    (hcont : ∀ p, p < c.length → (v (p / env.cs))[p % env.cs]? = c[p]?)
    (hk : 0 < k) (hpk : pos + k ≤ c.length) :
    ∃ m, 0 < m ∧ m ≤ k ∧
      ((v (pos / env.cs)).drop (pos % env.cs)).take k = (c.drop pos).take m := by
  have hcs := env.cs_pos
  have h0 := hcont pos (by omega)
  have hlt : pos % env.cs < (v (pos / env.cs)).length := by
    have h2 : (v (pos / env.cs))[pos % env.cs]? ≠ none := by
      rw [h0]; simp; omega
    simpa [List.getElem?_eq_none_iff] using h2
  refine ⟨min k ((v (pos / env.cs)).length - pos % env.cs), by omega, by omega, ?_⟩
  apply List.ext_getElem?
  intro i
  simp only [List.getElem?_take, List.getElem?_drop]
  by_cases hi : i < k
  · by_cases hi2 : pos % env.cs + i < (v (pos / env.cs)).length
    · have e1 : (pos + i) / env.cs = pos / env.cs := by
        have hd := Nat.div_add_mod pos env.cs
        rw [Nat.mul_comm] at hd
        apply Nat.div_eq_of_lt_le
        · omega
        · rw [Nat.add_mul, Nat.one_mul]; omega
      have e2 : (pos + i) % env.cs = pos % env.cs + i := by
        have h1 := Nat.div_add_mod pos env.cs
        have h2 := Nat.div_add_mod (pos + i) env.cs
        rw [e1] at h2; omega
      have := hcont (pos + i) (by omega)
      rw [e1, e2] at this
      simp only [hi, if_true]
      rw [if_pos (by omega)]
      exact this
    · rw [if_pos hi, if_neg (by omega), List.getElem?_eq_none_iff]
      omega
  · rw [if_neg hi, if_neg (by omega)]

theorem readLoop_ok {env : Env} {L : List Bytes} (hL : CollFree env.H L) :
    ∀ (fuel k : Nat) (s : S) (c acc : Bytes), k ≤ fuel → Rep env s c → s.f.pos + k ≤ c.length →
      (s.readLoop env fuel k acc).2.w.log ⊆ L →
      ∃ s', s.readLoop env fuel k acc = (.ok (acc ++ (c.drop s.f.pos).take k), s') ∧ Rep env s' c ∧
        Ext s.w s'.w ∧ s'.f.pos = s.f.pos + k ∧ Same s.f s'.f := by
  intro fuel
  induction fuel with
  | zero =>
    intro k s c acc hk hr hpk hlog
    have : k = 0 := by omega
    subst this
    have : s.readLoop env 0 (0 : Nat) acc = (.ok acc, s) := by rw [S.readLoop]; simp
    exact ⟨s, by rw [this]; simp, hr, Ext.refl _, by simp, Same.refl _⟩
  | succ fuel ih =>
    intro k s c acc hk hr hpk hlog
    by_cases hk0 : k = 0
    · subst hk0
      have : s.readLoop env (fuel + 1) (0 : Nat) acc = (.ok acc, s) := by rw [S.readLoop]; simp
      exact ⟨s, by rw [this]; simp, hr, Ext.refl _, by simp, Same.refl _⟩
    · have hki : ¬ ((k : Int) = 0) := by omega
      have hcl : (s.currentChunk env).2.w.log ⊆ L := by
        intro x hx
        apply hlog
        rw [S.readLoop, if_neg hki]
        revert hx
        cases hcc : s.currentChunk env with
        | mk a b =>
          cases a with
          | error e => exact id
          | ok p =>
            obtain ⟨i, o⟩ := p
            dsimp only
            intro hx
            split
            · exact hx
            · split
              · exact hx
              · split
                · exact hx
                · exact S.readLoop_log env _ _ _ _ hx
      obtain ⟨s1, ch, h1, hb1, he1, hf1, hv1, hch⟩ := currentChunk_ok hL s hr.base hcl
      have hp1 : s1.f.pos = s.f.pos := by rw [hf1]
      obtain ⟨m, hm0, hmk, hm⟩ := cont_read (env := env) (v := view s) (c := c) (pos := s.f.pos)
        (k := k) (view_length hr.base _) hr.cont (by omega) hpk
      have hml : ((c.drop s.f.pos).take m).length = m := by simp; omega
      have hread : ch.read env s1.w (s.f.pos % env.cs) k = .ok ((c.drop s.f.pos).take m,
          ((k - m : Nat) : Int), { ch with data := some (view s1 (s.f.pos / env.cs)) }) := by
        unfold Chunk.read
        rw [readExisting_ok hb1 hch]
        dsimp only
        have hbr : bufRead (view s1 (s.f.pos / env.cs)) (s.f.pos % env.cs) k =
            (c.drop s.f.pos).take m := by
          unfold bufRead
          rw [if_neg (by omega), hv1, Int.toNat_natCast, hm]
        rw [hbr]
        have hne1 : (k : Int) ≠ -1 := by omega
        rw [if_pos hne1, hml]
        congr 3
        omega
      have hsl := Base.setLoaded hb1 (s.f.pos / env.cs) ch hch (s1.f.pos + m)
      dsimp only at hsl
      obtain ⟨hb2, hv2⟩ := hsl
      have heq : s.readLoop env (fuel + 1) k acc = S.readLoop env fuel { s1 with f := { s1.f with
          chunks := s1.f.chunks.set (s.f.pos / env.cs)
            { ch with data := some (view s1 (s.f.pos / env.cs)) }, pos := s1.f.pos + m } }
          ((k - m : Nat) : Int) (acc ++ (c.drop s.f.pos).take m) := by
        conv => lhs; rw [S.readLoop]
        rw [if_neg hki]
        dsimp only
        rw [h1]
        dsimp only
        rw [hch]
        dsimp only
        rw [hread]
        dsimp only
        rw [if_neg (by intro h; rw [h] at hml; simp at hml; omega), hml]
      rw [heq] at hlog ⊢
      have hr2 : Rep env { s1 with f := { s1.f with
          chunks := s1.f.chunks.set (s.f.pos / env.cs)
            { ch with data := some (view s1 (s.f.pos / env.cs)) }, pos := s1.f.pos + m } } c := by
        refine ⟨hb2, ?_, ?_, ?_⟩
        · show s1.f.size = _; rw [hf1]; exact hr.size
        · show s1.f.pos + m ≤ _; omega
        · intro p hp; rw [hv2, hv1]; exact hr.cont p hp
      obtain ⟨s', e1, e2, e3, e4, e5⟩ := ih (k - m) _ c _ (by omega) hr2
        (by show s1.f.pos + m + _ ≤ _; omega) hlog
      refine ⟨s', ?_, e2, he1.trans e3, ?_, ?_⟩
      · rw [e1]
        congr 2
        show acc ++ _ ++ (c.drop (s1.f.pos + m)).take (k - m) = _
        rw [hp1, List.append_assoc]
        congr 1
        have : k = m + (k - m) := by omega
        conv => rhs; rw [this, List.take_add, List.drop_drop]
      · rw [e4]; show s1.f.pos + m + _ = _; omega
      · refine Same.trans ⟨?_, ?_, ?_⟩ e5
        · show s1.f.name = _; rw [hf1]
        · show s1.f.mode = _; rw [hf1]
        · show s1.f.closed = _; rw [hf1]

end Verif.Chunked
