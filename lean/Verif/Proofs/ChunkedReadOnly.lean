import Verif.Proofs.ChunkedOpen
/-! # Read-only sessions on arbitrary, possibly corrupt stores -/
namespace Verif.Chunked
open Verif Verif.Spec

/-- `d` is what a sound chunk for the mapping entry must contain. -/
def GoodData (env : Env) (w : World) : Option Hash → Bytes → Prop
  | none, d => d = []
  | some h, d => w.chunks.get? h = some (some d) ∧ env.H d = h

/-- Every byte of `b`, read at `pos`, comes from its place in a chunk file that hashes to the value
recorded in the mapping `m`. -/
def Certified (env : Env) (w : World) (m : Dict Nat Hash) (pos : Nat) (b : Bytes) : Prop :=
  ∀ i, i < b.length → ∃ h d, m.get? ((pos + i) / env.cs) = some h ∧
    w.chunks.get? h = some (some d) ∧ env.H d = h ∧ d[(pos + i) % env.cs]? = b[i]?

structure RO (env : Env) (w : World) (m : Dict Nat Hash) (n : Nat) (s : S) : Prop where
  chunks : s.w.chunks = w.chunks
  metas : s.w.metas = w.metas
  mapping : s.f.mapping = m
  size : s.f.size = n
  pos : s.f.pos ≤ n
  mode : s.f.mode.w = false
  cache : ∀ id ch, (id, ch) ∈ s.f.chunks → ch.clean = true ∧ ch.hash = m.get? id ∧
    ∀ d, ch.data = some d → GoodData env w (m.get? id) d

theorem flushList_clean (env : Env) (l : List (Nat × Chunk)) (s : S)
    (h : ∀ id ch, (id, ch) ∈ l → ch.clean = true) : flushList env l s = (.ok (), s) := by
  induction l with
  | nil => rfl
  | cons e l ih =>
    obtain ⟨id, c⟩ := e
    have hc := h id c (by simp)
    rw [flushList]
    simp only [Chunk.flush, hc, if_true]
    exact ih (fun i x hx => h i x (by simp [hx]))

theorem RO.flushChunks {env : Env} {w : World} {m : Dict Nat Hash} {size : Nat} {s : S}
    (h : RO env w m size s) (t : Nat) :
    ∃ s', s.flushChunks env t = (.ok (), s') ∧ RO env w m size s' ∧ s'.f.pos = s.f.pos ∧
      s'.f.mode = s.f.mode ∧ s'.f.closed = s.f.closed := by
  unfold S.flushChunks
  split
  · exact ⟨s, rfl, h, rfl, rfl, rfl⟩
  · have hperm : s.f.sortedChunks.Perm s.f.chunks := sortBy_perm _ _
    have hm : ∀ e, e ∈ s.f.sortedChunks → e ∈ s.f.chunks := fun e he => hperm.mem_iff.1 he
    dsimp only
    rw [flushList_clean env _ s (fun id ch hx => (h.cache id ch (hm _ (List.mem_of_mem_drop hx))).1)]
    exact ⟨_, rfl, ⟨h.chunks, h.metas, h.mapping, h.size, h.pos, h.mode,
      fun id ch hx => h.cache id ch (hm _ (List.mem_of_mem_take hx))⟩, rfl, rfl, rfl⟩

theorem RO.currentChunk {env : Env} {w : World} {m : Dict Nat Hash} {size : Nat} {s : S}
    (h : RO env w m size s) :
    ∃ s', s.currentChunk env = (.ok (s.f.pos / env.cs, s.f.pos % env.cs), s') ∧
      RO env w m size s' ∧ s'.f.pos = s.f.pos ∧ s'.f.mode = s.f.mode ∧ s'.f.closed = s.f.closed := by
  unfold S.currentChunk
  dsimp only
  by_cases hh : s.f.chunks.has (s.f.pos / env.cs) = true
  · rw [if_pos hh]
    exact ⟨_, rfl, ⟨h.chunks, h.metas, h.mapping, h.size, h.pos, h.mode, h.cache⟩, rfl, rfl, rfl⟩
  · rw [if_neg hh]
    obtain ⟨s1, e1, e2, e3, e4, e5⟩ := h.flushChunks flushTarget
    rw [e1]
    refine ⟨_, rfl, ⟨e2.chunks, e2.metas, e2.mapping, e2.size, e2.pos, e2.mode, ?_⟩, e3, e4, e5⟩
    intro id ch hx
    rcases Dict.mem_set hx with hx | hx
    · cases hx
      exact ⟨rfl, by simp [Chunk.new, e2.mapping], by intro d hd; simp [Chunk.new] at hd⟩
    · exact e2.cache id ch hx

theorem readLoop_ro {env : Env} {w : World} {m : Dict Nat Hash} {size : Nat}
    (hsz : ∀ h d, w.chunks.get? h = some (some d) → env.H d = h → d.length ≤ env.cs) :
    ∀ (fuel k : Nat) (s : S) (acc : Bytes), RO env w m size s → s.f.pos + k ≤ size →
      RO env w m size (s.readLoop env fuel k acc).2 ∧
      (s.readLoop env fuel k acc).2.f.mode = s.f.mode ∧
      (s.readLoop env fuel k acc).2.f.closed = s.f.closed ∧
      ∀ r, (s.readLoop env fuel k acc).1 = .ok r →
        ∃ b, r = acc ++ b ∧ b.length = k ∧ Certified env w m s.f.pos b := by
  intro fuel
  induction fuel with
  | zero =>
    intro k s acc hr hk
    rw [S.readLoop]
    split
    · rename_i h0
      have : k = 0 := by omega
      subst this
      refine ⟨hr, rfl, rfl, fun r h => ?_⟩
      cases h
      exact ⟨[], by simp, rfl, by intro i hi; simp at hi⟩
    · exact ⟨hr, rfl, rfl, by intro r h; cases h⟩
  | succ fuel ih =>
    intro k s acc hr hk
    rw [S.readLoop]
    split
    · rename_i h0
      have : k = 0 := by omega
      subst this
      refine ⟨hr, rfl, rfl, fun r h => ?_⟩
      cases h
      exact ⟨[], by simp, rfl, by intro i hi; simp at hi⟩
    · rename_i h0
      dsimp only
      obtain ⟨s1, e1, e2, e3, e4, e5⟩ := hr.currentChunk
      rw [e1]
      dsimp only
      cases hg : s1.f.chunks.get? (s.f.pos / env.cs) with
      | none => exact ⟨e2, e4, e5, by intro r h; cases h⟩
      | some ch =>
        dsimp only
        have hcache := e2.cache _ _ (Dict.mem_of_get? hg)
        cases hrd : ch.read env s1.w (s.f.pos % env.cs) k with
        | error e => exact ⟨e2, e4, e5, by intro r h; cases h⟩
        | ok res =>
          obtain ⟨data, rem, ch'⟩ := res
          dsimp only
          -- what was read
          have hread : ∃ buf, ch' = { ch with data := some buf } ∧
              GoodData env w (m.get? (s.f.pos / env.cs)) buf ∧
              data = (buf.drop (s.f.pos % env.cs)).take k ∧ rem = ((k - data.length : Nat) : Int) := by
            unfold Chunk.read at hrd
            cases hre : ch.readExisting env s1.w with
            | error e => rw [hre] at hrd; cases hrd
            | ok c2 =>
              rw [hre] at hrd
              dsimp only at hrd
              have hc2 : ∃ buf, c2 = { ch with data := some buf } ∧
                  GoodData env w (m.get? (s.f.pos / env.cs)) buf := by
                unfold Chunk.readExisting at hre
                cases hd : ch.data with
                | some buf =>
                  rw [hd] at hre; dsimp only at hre
                  cases hre
                  exact ⟨buf, by rw [← hd], hcache.2.2 buf hd⟩
                | none =>
                  rw [hd] at hre; dsimp only at hre
                  cases hh : ch.hash with
                  | none =>
                    rw [hh] at hre; dsimp only at hre
                    cases hre
                    refine ⟨[], rfl, ?_⟩
                    rw [← hcache.2.1, hh]; rfl
                  | some x =>
                    rw [hh] at hre; dsimp only at hre
                    rw [e2.chunks] at hre
                    cases hw : w.chunks.get? x with
                    | none => rw [hw] at hre; cases hre
                    | some y =>
                      rw [hw] at hre
                      cases y with
                      | none => cases hre
                      | some d =>
                        dsimp only at hre
                        split at hre
                        · rename_i hH
                          cases hre
                          refine ⟨d, rfl, ?_⟩
                          rw [← hcache.2.1, hh]
                          exact ⟨hw, hH⟩
                        · cases hre
              obtain ⟨buf, rfl, hgood⟩ := hc2
              dsimp only at hrd
              cases hrd
              refine ⟨buf, rfl, hgood, ?_, ?_⟩
              · unfold bufRead; rw [if_neg (by omega)]; simp
              · rw [if_pos (by omega)]
                have : (bufRead buf (s.f.pos % env.cs) k).length ≤ k := by
                  unfold bufRead; rw [if_neg (by omega)]; simp; omega
                omega
          obtain ⟨buf, hch', hgood, hdata, hrem⟩ := hread
          have hdk : data.length ≤ k := by rw [hdata]; simp; omega
          have hRO : RO env w m size { s1 with f := { s1.f with
              chunks := s1.f.chunks.set (s.f.pos / env.cs) ch' } } := by
            refine ⟨e2.chunks, e2.metas, e2.mapping, e2.size, e2.pos, e2.mode, ?_⟩
            intro id c hx
            rcases Dict.mem_set hx with hx | hx
            · cases hx
              rw [hch']
              refine ⟨hcache.1, hcache.2.1, ?_⟩
              intro d hd; cases hd; exact hgood
            · exact e2.cache id c hx
          by_cases hde : data = []
          · rw [if_pos hde]
            exact ⟨hRO, e4, e5, by intro r h; cases h⟩
          · rw [if_neg hde, hrem]
            have hRO2 : RO env w m size { s1 with f := { s1.f with
                chunks := s1.f.chunks.set (s.f.pos / env.cs) ch', pos := s1.f.pos + data.length } } :=
              ⟨hRO.chunks, hRO.metas, hRO.mapping, hRO.size,
                by show s1.f.pos + data.length ≤ size; omega, hRO.mode, hRO.cache⟩
            obtain ⟨i1, i2, i3, i4⟩ := ih (k - data.length) _ (acc ++ data) hRO2
              (by show s1.f.pos + data.length + _ ≤ size; omega)
            refine ⟨i1, i2.trans e4, i3.trans e5, ?_⟩
            intro r hres
            obtain ⟨b, hb1, hb2, hb3⟩ := i4 r hres
            refine ⟨data ++ b, by rw [hb1, List.append_assoc], by rw [List.length_append, hb2]; omega, ?_⟩
            intro i hi
            by_cases hid : i < data.length
            · -- from this chunk
              have hbuf : data[i]? = buf[s.f.pos % env.cs + i]? := by
                rw [hdata, List.getElem?_take, if_pos (by omega), List.getElem?_drop]
              have hlt : s.f.pos % env.cs + i < buf.length := by
                rw [hdata] at hid
                simp at hid; omega
              cases hmg : m.get? (s.f.pos / env.cs) with
              | none => rw [hmg] at hgood; simp only [GoodData] at hgood; subst hgood; simp at hlt
              | some x =>
                rw [hmg] at hgood
                obtain ⟨g1, g2⟩ := hgood
                have hle := hsz x buf g1 g2
                have hdm := Nat.div_add_mod s.f.pos env.cs
                rw [Nat.mul_comm] at hdm
                have q1 : (s.f.pos + i) / env.cs = s.f.pos / env.cs := by
                  apply Nat.div_eq_of_lt_le
                  · omega
                  · rw [Nat.add_mul, Nat.one_mul]; omega
                have q2 : (s.f.pos + i) % env.cs = s.f.pos % env.cs + i := by
                  have h2 := Nat.div_add_mod (s.f.pos + i) env.cs
                  rw [q1, Nat.mul_comm] at h2; omega
                refine ⟨x, buf, by rw [q1]; exact hmg, g1, g2, ?_⟩
                rw [q2, ← hbuf, List.getElem?_append_left hid]
            · have := hb3 (i - data.length) (by rw [List.length_append] at hi; omega)
              obtain ⟨x, d, q1, q2, q3, q4⟩ := this
              have hpe : s1.f.pos + data.length + (i - data.length) = s.f.pos + i := by omega
              change m.get? ((s1.f.pos + data.length + (i - data.length)) / env.cs) = some x at q1
              change d[(s1.f.pos + data.length + (i - data.length)) % env.cs]? = _ at q4
              rw [hpe] at q1 q4
              exact ⟨x, d, q1, q2, q3, by rw [q4, List.getElem?_append_right (by omega)]⟩

theorem RO.step {env : Env} {w : World} {m : Dict Nat Hash} {size : Nat}
    (hsz : ∀ h d, w.chunks.get? h = some (some d) → env.H d = h → d.length ≤ env.cs)
    {s : S} (h : RO env w m size s) (op : Op) : RO env w m size (s.step env op).1 := by
  have hw : ∀ d, s.write env d = (.error .assertion, s) := fun d => by simp [S.write, h.mode]
  cases op with
  | seek o wh =>
    show RO env w m size (s.seek env o wh).2
    unfold S.seek
    split
    · exact h
    · split
      · exact h
      · split
        · exact h
        · rename_i p _ hneg
          dsimp only
          split
          · rw [fill_readonly (s := ⟨{ s.f with pos := s.f.size }, s.w⟩) h.mode (by omega)]
            exact ⟨h.chunks, h.metas, h.mapping, h.size, by show s.f.size ≤ size; rw [h.size]; omega, h.mode, h.cache⟩
          · rename_i hgt
            exact ⟨h.chunks, h.metas, h.mapping, h.size, by show p.toNat ≤ size; rw [← h.size]; omega, h.mode, h.cache⟩
  | write d =>
    show RO env w m size (s.write env d).2
    rw [hw]; exact h
  | read n =>
    show RO env w m size (s.read env (readArg n)).2
    unfold S.read
    split
    · exact h
    · dsimp only
      have hp := h.pos
      have hs := h.size
      obtain ⟨k, hk, hkl⟩ : ∃ k : Nat, (if readArg n = -1 then (s.f.size : Int) - s.f.pos
          else min (readArg n) ((s.f.size : Int) - s.f.pos)) = (k : Int) ∧ s.f.pos + k ≤ size := by
        cases n with
        | none => exact ⟨size - s.f.pos, by simp [readArg, h.size]; omega, by omega⟩
        | some n =>
          refine ⟨min n (size - s.f.pos), ?_, by omega⟩
          rw [if_neg (by simp only [readArg]; omega)]
          simp only [readArg, h.size]; omega
      rw [hk]
      exact (readLoop_ro hsz _ k s [] h hkl).1
  | truncate =>
    show RO env w m size (s.truncate env none).2
    have : s.truncate env none = (.error .assertion, s) := by simp [S.truncate, h.mode]
    rw [this]; exact h
  | flush =>
    show RO env w m size (s.flush env).2
    have : s.flush env = (.error .assertion, s) := by simp [S.flush, h.mode]
    rw [this]; exact h
  | tell =>
    show RO env w m size s.tell.2
    unfold S.tell; split <;> exact h
  | close =>
    show RO env w m size (s.close env).2
    unfold S.close
    split
    · exact h
    · rw [if_neg (by simp [h.mode])]
      exact ⟨h.chunks, h.metas, h.mapping, h.size, h.pos, h.mode, h.cache⟩

theorem RO.run {env : Env} {w : World} {m : Dict Nat Hash} {size : Nat}
    (hsz : ∀ h d, w.chunks.get? h = some (some d) → env.H d = h → d.length ≤ env.cs)
    (ops : List Op) : ∀ {s : S}, RO env w m size s → RO env w m size (s.run env ops) := by
  induction ops with
  | nil => exact fun h => h
  | cons op ops ih => exact fun h => ih (h.step hsz op)

end Verif.Chunked
