import Verif.Proofs.History
import Verif.Proofs.Damage
import Mathlib.Tactic.ByContra
import Verif.Props.BackupRuns
/-!
# Property C116: an incremental backup shares the chunks it does not change with its parent
-/
namespace Verif.Chunked
open Verif Verif.Spec Verif.Diff

/-- While a diff is applied to the copy of a mapping `m0` of an image of size `old`, where only positions with `P` are written and the size becomes `n`. -/
structure SameMap (env : Env) (P : Nat → Prop) (m0 : Dict Nat Hash) (old n : Nat) (name : String) (c0 : Dict Hash (Option Bytes)) (s : S) : Prop where
  mapping : ∀ id, id * env.cs ≤ n → (∀ p, p / env.cs = id → ¬ P p) → s.f.mapping.get? id = m0.get? id
  dirty : ∀ e ∈ s.f.chunks, e.2.clean = false → ∃ p, p / env.cs = e.1 ∧ P p
  size : old ≤ s.f.size ∨ n ≤ s.f.size
  name_ : s.f.name = name
  stored : ∀ m, s.w.metas.get? name = some (some m) → ∀ id, id * env.cs ≤ n → (∀ p, p / env.cs = id → ¬ P p) → m.mapping.get? id = m0.get? id
  none_ : (∀ p, ¬ P p) → s.w.chunks = c0

variable {env : Env} {P : Nat → Prop} {m0 : Dict Nat Hash} {old n : Nat} {name : String} {c0 : Dict Hash (Option Bytes)}

theorem flush_clean {c c' : Chunk} {w w' : World} {h : Option Hash} (hf : c.flush env w = .ok (h, c', w')) :
    w'.metas = w.metas ∧ (c.clean = true → h = none ∧ w' = w) := by
  unfold Chunk.flush at hf
  split at hf
  · rename_i hc
    cases hf
    exact ⟨rfl, fun _ => ⟨rfl, rfl⟩⟩
  · rename_i hc
    split at hf
    · cases hf
    · cases hf
      refine ⟨?_, fun h => absurd h hc⟩
      dsimp only
      split
      · rfl
      · split <;> rfl

theorem SameMap.flushList : ∀ (l : List (Nat × Chunk)) {s : S}, SameMap env P m0 old n name c0 s →
    (∀ e ∈ l, e.2.clean = false → ∃ p, p / env.cs = e.1 ∧ P p) →
    SameMap env P m0 old n name c0 (flushList env l s).2 ∧ (Verif.Chunked.flushList env l s).2.f.chunks = s.f.chunks ∧
      (Verif.Chunked.flushList env l s).2.f.pos = s.f.pos ∧ (Verif.Chunked.flushList env l s).2.f.size = s.f.size
  | [], s, h, _ => ⟨h, rfl, rfl, rfl⟩
  | (id, c) :: l, s, h, hl => by
    unfold Verif.Chunked.flushList
    split
    · exact ⟨h, rfl, rfl, rfl⟩
    · rename_i h? c' w' hf
      obtain ⟨hm, hc⟩ := flush_clean hf
      have hnone : (∀ p, ¬ P p) → w'.chunks = c0 := by
        intro hp
        cases hcl : c.clean with
        | true => rw [(hc hcl).2]; exact h.none_ hp
        | false =>
          obtain ⟨p, _, hp'⟩ := hl (id, c) (by simp) hcl
          exact absurd hp' (hp p)
      split
      · exact SameMap.flushList l (s := ⟨s.f, w'⟩) ⟨h.mapping, h.dirty, h.size, h.name_, by rw [hm]; exact h.stored, hnone⟩
          (fun e he => hl e (by simp [he]))
      · rename_i x
        refine SameMap.flushList l (s := ⟨{ s.f with mapping := s.f.mapping.set id x }, w'⟩)
          ⟨?_, h.dirty, h.size, h.name_, by rw [hm]; exact h.stored, hnone⟩ (fun e he => hl e (by simp [he]))
        intro id' hid hno
        show Dict.get? (s.f.mapping.set id x) id' = _
        rw [Dict.get?_set]
        split
        · rename_i heq
          subst heq
          cases hcl : c.clean with
          | true =>
            have := (hc hcl).1
            cases this
          | false =>
            obtain ⟨p, hp1, hp2⟩ := hl (id', c) (by simp) hcl
            exact absurd hp2 (hno p hp1)
        · exact h.mapping id' hid hno

theorem SameMap.flushChunks {s : S} (h : SameMap env P m0 old n name c0 s) (target : Nat) :
    SameMap env P m0 old n name c0 (s.flushChunks env target).2 ∧ (s.flushChunks env target).2.f.pos = s.f.pos ∧
      (s.flushChunks env target).2.f.size = s.f.size := by
  have hperm : s.f.sortedChunks.Perm s.f.chunks := sortBy_perm _ _
  unfold S.flushChunks
  split
  · exact ⟨h, rfl, rfl⟩
  · dsimp only
    obtain ⟨k1, k2, k3, k4⟩ := h.flushList (s.f.sortedChunks.drop target) (fun e he => h.dirty e (hperm.mem_iff.1 (List.mem_of_mem_drop he)))
    generalize Verif.Chunked.flushList env (s.f.sortedChunks.drop target) s = g at k1 k2 k3 k4
    obtain ⟨g1, g2⟩ := g
    dsimp only at k1 k2 k3 k4
    cases g1 with
    | error e => exact ⟨k1, k3, k4⟩
    | ok u =>
      refine ⟨⟨k1.mapping, ?_, k1.size, k1.name_, k1.stored, k1.none_⟩, k3, k4⟩
      intro e he
      exact h.dirty e (hperm.mem_iff.1 (List.mem_of_mem_take he))

theorem SameMap.flush {s : S} (h : SameMap env P m0 old n name c0 s) :
    SameMap env P m0 old n name c0 (s.flush env).2 ∧ (s.flush env).2.f.pos = s.f.pos ∧ (s.flush env).2.f.size = s.f.size := by
  unfold S.flush
  split
  · exact ⟨h, rfl, rfl⟩
  · obtain ⟨k1, k2, k3⟩ := h.flushChunks 0
    generalize s.flushChunks env 0 = g at k1 k2 k3
    obtain ⟨g1, g2⟩ := g
    dsimp only at k1 k2 k3
    cases g1 with
    | error e => exact ⟨k1, k2, k3⟩
    | ok u =>
      refine ⟨⟨k1.mapping, k1.dirty, k1.size, k1.name_, ?_, k1.none_⟩, k2, k3⟩
      intro m hm id hid hno
      have hm : Dict.get? (g2.w.metas.set g2.f.name (some ⟨g2.f.mapping, g2.f.size⟩)) name = some (some m) := hm
      rw [k1.name_, Dict.get?_set_self] at hm
      cases hm
      exact k1.mapping id hid hno

theorem SameMap.close {s : S} (h : SameMap env P m0 old n name c0 s) : SameMap env P m0 old n name c0 (s.close env).2 := by
  unfold S.close
  split
  · exact h
  · split
    · have k1 := h.flush.1
      generalize s.flush env = g at k1
      obtain ⟨g1, g2⟩ := g
      dsimp only at k1
      cases g1 with
      | error e => exact k1
      | ok u => exact ⟨k1.mapping, k1.dirty, k1.size, k1.name_, k1.stored, k1.none_⟩
    · exact ⟨h.mapping, h.dirty, h.size, h.name_, h.stored, h.none_⟩

theorem SameMap.currentChunk {s : S} (h : SameMap env P m0 old n name c0 s) :
    SameMap env P m0 old n name c0 (s.currentChunk env).2 ∧ (s.currentChunk env).2.f.pos = s.f.pos ∧
      (s.currentChunk env).2.f.size = s.f.size ∧ ∀ x, (s.currentChunk env).1 = .ok x → x = (s.f.pos / env.cs, s.f.pos % env.cs) := by
  unfold S.currentChunk
  dsimp only
  by_cases hh : s.f.chunks.has (s.f.pos / env.cs) = true
  · rw [if_pos hh]
    exact ⟨⟨h.mapping, h.dirty, h.size, h.name_, h.stored, h.none_⟩, rfl, rfl, fun x hx => by cases hx; rfl⟩
  · rw [if_neg hh]
    obtain ⟨k1, k2, k3⟩ := h.flushChunks flushTarget
    generalize s.flushChunks env flushTarget = g at k1 k2 k3
    obtain ⟨g1, g2⟩ := g
    dsimp only at k1 k2 k3
    cases g1 with
    | error e => exact ⟨k1, k2, k3, fun x hx => by cases hx⟩
    | ok u =>
      refine ⟨⟨k1.mapping, ?_, k1.size, k1.name_, k1.stored, k1.none_⟩, k2, k3, fun x hx => by cases hx; rfl⟩
      intro e he hc
      rcases Dict.mem_set he with rfl | he
      · cases hc
      · exact k1.dirty e he hc

theorem write_used {c c' : Chunk} {w : World} {off k : Nat} {d rest : Bytes} (h : c.write env w off d = .ok (k, rest, c')) :
    k + rest.length = d.length ∧ rest = d.drop k := by
  have h1 : (d.take (env.cs - off)).length + (d.drop (env.cs - off)).length = d.length := by
    rw [← List.length_append, List.take_append_drop]
  have h2 : d.drop (env.cs - off) = d.drop (d.take (env.cs - off)).length := by
    rw [List.length_take]
    by_cases hx : env.cs - off ≤ d.length
    · rw [Nat.min_eq_left hx]
    · rw [Nat.min_eq_right (by omega), List.drop_length, List.drop_of_length_le (by omega)]
  unfold Chunk.write at h
  dsimp only at h
  split at h
  · cases h; exact ⟨h1, h2⟩
  · split at h
    · cases h
    · split at h
      · cases h
      · cases h; exact ⟨h1, h2⟩

theorem SameMap.writeLoop (k : Nat) : ∀ {s : S} (d : Bytes), d.length = k → SameMap env P m0 old n name c0 s →
    (∀ p, s.f.pos ≤ p → p < s.f.pos + d.length → P p) →
    SameMap env P m0 old n name c0 (s.writeLoop env d).2 ∧ ((s.writeLoop env d).1 = .ok () → (s.writeLoop env d).2.f.pos = s.f.pos + d.length ∧
      (s.writeLoop env d).2.f.size = max s.f.size (s.f.pos + d.length) ∨ d = []) := by
  induction k using Nat.strongRecOn with
  | ind k ih =>
    intro s d hk h hp
    unfold S.writeLoop
    split
    · rename_i hd
      exact ⟨h, fun _ => .inr hd⟩
    rename_i hd
    have hd0 : 0 < d.length := by
      cases d with
      | nil => exact absurd rfl hd
      | cons a b => simp
    obtain ⟨k1, k2, k3, k4⟩ := h.currentChunk
    generalize s.currentChunk env = g at k1 k2 k3 k4
    obtain ⟨g1, g2⟩ := g
    dsimp only at k1 k2 k3 k4
    cases g1 with
    | error e => exact ⟨k1, fun hh => by cases hh⟩
    | ok x =>
      have hx := k4 x rfl
      subst hx
      dsimp only
      split
      · exact ⟨k1, fun hh => by cases hh⟩
      rename_i c hc
      split
      · exact ⟨k1, fun hh => by cases hh⟩
      rename_i wr rest c' hw
      obtain ⟨u1, u2⟩ := write_used hw
      split
      swap
      · exact ⟨k1, fun hh => by cases hh⟩
      rename_i hlt
      have hkept : SameMap env P m0 old n name c0 ⟨{ g2.f with chunks := g2.f.chunks.set (s.f.pos / env.cs) c', pos := g2.f.pos + wr, size := max g2.f.size (g2.f.pos + wr) }, g2.w⟩ := by
        refine ⟨k1.mapping, ?_, ?_, k1.name_, k1.stored, k1.none_⟩
        · intro e he hcl
          rcases Dict.mem_set he with rfl | he
          · exact ⟨s.f.pos, rfl, hp _ (Nat.le_refl _) (by omega)⟩
          · exact k1.dirty e he hcl
        · have := k1.size
          show old ≤ max _ _ ∨ n ≤ max _ _
          omega
      obtain ⟨r1, r2⟩ := ih rest.length (by omega) rest rfl hkept (by
        intro p hp1 hp2
        have hp1 : g2.f.pos + wr ≤ p := hp1
        have hp2 : p < g2.f.pos + wr + rest.length := hp2
        rw [k2] at hp1 hp2
        exact hp p (by omega) (by omega))
      refine ⟨r1, fun hok => .inl ?_⟩
      rcases r2 hok with ⟨q1, q2⟩ | hnil
      · rw [q1, q2]
        show g2.f.pos + wr + rest.length = _ ∧ max (max g2.f.size (g2.f.pos + wr)) (g2.f.pos + wr + rest.length) = _
        rw [k2, k3]
        omega
      · rw [hnil] at u1 ⊢
        have h0 : ∀ t : S, t.writeLoop env [] = (.ok (), t) := by intro t; unfold S.writeLoop; rw [if_pos rfl]
        rw [h0]
        show g2.f.pos + wr = _ ∧ max g2.f.size (g2.f.pos + wr) = _
        rw [k2, k3]
        simp only [List.length_nil, Nat.add_zero] at u1
        rw [u1]; exact ⟨rfl, rfl⟩

theorem SameMap.write {s : S} (h : SameMap env P m0 old n name c0 s) (d : Bytes) (hp : ∀ p, s.f.pos ≤ p → p < s.f.pos + d.length → P p) :
    SameMap env P m0 old n name c0 (s.write env d).2 ∧ ((s.write env d).1 = .ok () → (s.write env d).2.f.pos = s.f.pos + d.length) := by
  unfold S.write
  split
  · exact ⟨h, fun hh => by cases hh⟩
  · obtain ⟨h1, h2⟩ := SameMap.writeLoop d.length d rfl h hp
    refine ⟨h1, fun hok => ?_⟩
    rcases h2 hok with ⟨h3, _⟩ | rfl
    · exact h3
    · unfold S.writeLoop; rw [if_pos rfl]; rfl

theorem SameMap.fill (k : Nat) : ∀ {s : S}, SameMap env P m0 old n name c0 s → (∀ p, s.f.pos ≤ p → p < s.f.pos + k → P p) →
    SameMap env P m0 old n name c0 (s.fill env k).2 := by
  induction k using Nat.strongRecOn with
  | ind k ih =>
    intro s h hp
    unfold S.fill
    split
    · exact h
    dsimp only
    have hb := env.blk_pos
    have hzl : (zeros (min k env.blk)).length = min k env.blk := by simp [zeros]
    obtain ⟨h1, h2⟩ := h.write (zeros (min k env.blk)) (fun p hp1 hp2 => hp p hp1 (by rw [hzl] at hp2; omega))
    generalize s.write env (zeros (min k env.blk)) = g at h1 h2
    obtain ⟨g1, g2⟩ := g
    dsimp only at h1 h2
    cases g1 with
    | error e => exact h1
    | ok u =>
      have hpos := h2 rfl
      rw [hzl] at hpos
      refine ih (k - min k env.blk) (by omega) h1 ?_
      intro p hp1 hp2
      rw [hpos] at hp1 hp2
      exact hp p (by omega) (by omega)

theorem SameMap.seek {s : S} (h : SameMap env P m0 old n name c0 s) (hgrow : ∀ p, old ≤ p → p < n → P p) (t : Nat) (ht : t ≤ n) :
    SameMap env P m0 old n name c0 (s.seek env t .set).2 ∧ ∀ x, (s.seek env t .set).1 = .ok x → (s.seek env t .set).2.f.pos = t := by
  unfold S.seek File.seekTarget
  split
  · exact ⟨h, fun x hx => by cases hx⟩
  dsimp only
  rw [if_neg (by omega)]
  simp only [Int.toNat_natCast]
  split
  · rename_i hgt
    have hk := SameMap.fill (t - s.f.size) (s := { s with f := { s.f with pos := s.f.size } })
      ⟨h.mapping, h.dirty, h.size, h.name_, h.stored, h.none_⟩ (by
        intro p hp1 hp2
        have hp1 : s.f.size ≤ p := hp1
        have hp2 : p < s.f.size + (t - s.f.size) := hp2
        have := h.size
        exact hgrow p (by omega) (by omega))
    generalize S.fill env { s with f := { s.f with pos := s.f.size } } (t - s.f.size) = g at hk
    obtain ⟨g1, g2⟩ := g
    cases g1 with
    | error e => exact ⟨hk, fun x hx => by cases hx⟩
    | ok u =>
      dsimp only
      split
      · rename_i hc
        exact ⟨hk, fun x hx => hc.1⟩
      · exact ⟨hk, fun x hx => by cases hx⟩
  · exact ⟨⟨h.mapping, h.dirty, h.size, h.name_, h.stored, h.none_⟩, fun x hx => rfl⟩

theorem SameMap.truncate {s : S} (h : SameMap env P m0 old n name c0 s) (hn : s.f.pos = n) : SameMap env P m0 old n name c0 (s.truncate env none).2 := by
  unfold S.truncate
  split
  · exact h
  dsimp only
  have hk : SameMap env P m0 old n name c0 { s with f := { s.f with
      size := (none : Option Nat).getD s.f.pos, mapping := s.f.mapping.filter (fun e => decide (¬ e.1 * env.cs > (none : Option Nat).getD s.f.pos)) } } := by
    refine ⟨?_, h.dirty, .inr ?_, h.name_, h.stored, h.none_⟩
    · intro id hid hno
      rw [← h.mapping id hid hno]
      refine (Dict.get?_filter s.f.mapping (fun k => decide (¬ k * env.cs > (none : Option Nat).getD s.f.pos)) id).trans (if_pos ?_)
      simp only [Option.getD_none, hn]
      exact decide_eq_true (by omega)
    · show n ≤ s.f.pos
      rw [hn]
  exact hk.flush.1

/-- Writing pieces one after the other. -/
theorem SameMap.writes : ∀ (l : List Bytes) {s : S}, SameMap env P m0 old n name c0 s → (∀ p, s.f.pos ≤ p → p < s.f.pos + l.flatten.length → P p) →
    SameMap env P m0 old n name c0 (exec env (l.map .write) s).2
  | [], s, h, _ => h
  | d :: l, s, h, hp => by
    rw [List.flatten_cons, List.length_append] at hp
    obtain ⟨h1, h2⟩ := h.write d (fun p hp1 hp2 => hp p hp1 (by omega))
    rw [List.map_cons]
    unfold exec
    have hs : s.step env (.write d) = outOf (fun _ => .unit) (s.write env d) := rfl
    rw [hs]
    generalize s.write env d = g at h1 h2
    obtain ⟨g1, g2⟩ := g
    cases g1 with
    | error e => exact h1
    | ok u =>
      have hpos := h2 rfl
      refine SameMap.writes l (s := g2) h1 ?_
      intro p hp1 hp2
      dsimp only at hpos
      rw [hpos] at hp1 hp2
      exact hp p (by omega) (by omega)

/-- Records about positions with `P` only. -/
def RecOk (P : Nat → Prop) (n : Nat) : Rec → Prop
  | .size k => k = n
  | .zero start length => start + length ≤ n ∧ ∀ p, start ≤ p → p < start + length → P p
  | .data start _ chunks => start + chunks.flatten.length ≤ n ∧ ∀ p, start ≤ p → p < start + chunks.flatten.length → P p
  | _ => True

theorem exec_cons (op : Op) (ops : List Op) (s : S) : exec env (op :: ops) s =
    match (s.step env op).2 with
    | .error e => (.error e, (s.step env op).1)
    | .ok _ => exec env ops (s.step env op).1 := rfl

/-- A seek followed by something else. -/
theorem SameMap.seek_then {s : S} (h : SameMap env P m0 old n name c0 s) (hgrow : ∀ p, old ≤ p → p < n → P p) (t : Nat) (ht : t ≤ n) (ops : List Op)
    (hrest : ∀ s', SameMap env P m0 old n name c0 s' → s'.f.pos = t → SameMap env P m0 old n name c0 (exec env ops s').2) :
    SameMap env P m0 old n name c0 (exec env (.seek t .set :: ops) s).2 := by
  obtain ⟨h1, h2⟩ := h.seek hgrow t ht
  rw [exec_cons]
  have hs : s.step env (.seek t .set) = outOf .nat (s.seek env t .set) := rfl
  rw [hs]
  generalize s.seek env t .set = g at h1 h2
  obtain ⟨g1, g2⟩ := g
  cases g1 with
  | error e => exact h1
  | ok x => exact hrest g2 h1 (h2 x rfl)

theorem SameMap.applyRec {s : S} (h : SameMap env P m0 old n name c0 s) (hgrow : ∀ p, old ≤ p → p < n → P p) (f t : Bytes) {r : Rec} (hr : RecOk P n r) :
    SameMap env P m0 old n name c0 (applyRec env f t s r).2 := by
  cases r with
  | fromSnap b => unfold Diff.applyRec; dsimp only; split <;> exact h
  | toSnap b => unfold Diff.applyRec; dsimp only; split <;> exact h
  | size k =>
    have hk : k = n := hr
    subst hk
    refine h.seek_then hgrow k (Nat.le_refl _) [.truncate] ?_
    intro s' h' hpos
    have ht := h'.truncate hpos
    rw [exec_cons]
    have hs : s'.step env .truncate = outOf (fun _ => .unit) (s'.truncate env none) := rfl
    rw [hs]
    generalize s'.truncate env none = g at ht
    obtain ⟨g1, g2⟩ := g
    cases g1 <;> exact ht
  | data start len chunks =>
    obtain ⟨h1, h2⟩ := hr
    refine h.seek_then hgrow start (by omega) _ ?_
    intro s' h' hpos
    refine h'.writes chunks ?_
    rw [hpos]; exact h2
  | zero start len =>
    obtain ⟨h1, h2⟩ := hr
    obtain ⟨q1, q2⟩ := h.seek hgrow start (by omega)
    unfold Diff.applyRec
    dsimp only
    have hs : exec env [.seek start .set] s =
        match (s.seek env start .set) with
        | (.error e, s) => (.error e, s)
        | (.ok _, s) => (.ok (), s) := by
      rw [exec_cons]
      have hs : s.step env (.seek start .set) = outOf .nat (s.seek env start .set) := rfl
      rw [hs]
      generalize s.seek env start .set = g
      obtain ⟨g1, g2⟩ := g
      cases g1 <;> rfl
    rw [hs]
    generalize s.seek env start .set = g at q1 q2
    obtain ⟨g1, g2⟩ := g
    cases g1 with
    | error e => exact q1
    | ok x =>
      have hpos := q2 x rfl
      dsimp only at hpos q1
      dsimp only
      unfold punchHole
      split
      · exact q1
      · rw [hpos]
        refine q1.seek_then hgrow start (by omega) _ ?_
        intro s' h' hpos'
        have hzl : (zeros len).length = len := by simp [zeros]
        obtain ⟨w1, w2⟩ := h'.write (zeros len) (by rw [hzl, hpos']; exact h2)
        rw [exec_cons]
        have hs : s'.step env (.write (zeros len)) = outOf (fun _ => .unit) (s'.write env (zeros len)) := rfl
        rw [hs]
        generalize s'.write env (zeros len) = g at w1 w2
        obtain ⟨g1, g2⟩ := g
        cases g1 with
        | error e => exact w1
        | ok u => exact w1.seek_then hgrow start (by omega) [] (fun s'' h'' _ => h'')

theorem SameMap.applyRecs (hgrow : ∀ p, old ≤ p → p < n → P p) (f t : Bytes) : ∀ (l : List Rec) {s : S}, SameMap env P m0 old n name c0 s →
    (∀ r ∈ l, RecOk P n r) → SameMap env P m0 old n name c0 (applyRecs env f t l s).2
  | [], s, h, _ => h
  | r :: l, s, h, hr => by
    have h1 := h.applyRec hgrow f t (hr r (by simp))
    unfold Diff.applyRecs
    generalize Diff.applyRec env f t s r = g at h1
    obtain ⟨g1, g2⟩ := g
    cases g1 with
    | error e => exact h1
    | ok u => exact SameMap.applyRecs hgrow f t l h1 (fun r hr' => hr r (by simp [hr']))

end Verif.Chunked

namespace Verif.Backup
open Verif Verif.Chunked Verif.Spec Verif.Rbd Verif.Repo Verif.Files Verif.Diff

/-- The positions a diff may change in an image that had size `old` and gets size `new`: those a record is about, and those that are new. -/
def MayChange (d : Diff) (old new : Nat) (pos : Nat) : Prop := (∃ r ∈ d.datas, r.Covers pos) ∨ old ≤ pos ∧ pos < new

theorem integrate_kept {env : Env} {d : Diff} (hv : d.Valid) {f t c image : Bytes} (hd : d.Describes f t c image) {m0 : Dict Nat Hash} {old : Nat}
    {name : String} {c0 : Dict Hash (Option Bytes)} (f' t' : Bytes) {s : S} (h : SameMap env (MayChange d old image.length) m0 old image.length name c0 s) :
    SameMap env (MayChange d old image.length) m0 old image.length name c0 (integrate env d.encode f' t' s).2 := by
  obtain ⟨fuel, _, he⟩ := decode_datas env d hv [101]
  have hend : ∀ ph, readRecords env fuel ph [101] = ([], none) ∨ fuel = 0 := by
    intro ph
    cases fuel with
    | zero => exact .inr rfl
    | succ k => left; simp [readRecords, readRecord]
  have hrecs : (decode env d.encode).1 = d.metas.map MetaRec.rec ++ d.datas.map (DataRec.rec env) := by
    unfold Diff.encode
    rw [he]
    dsimp only
    rcases hend (if d.datas = [] then .metadata else .data) with h | h
    · rw [h, List.append_nil]
    · subst h; simp [readRecords]
  have hk : SameMap env (MayChange d old image.length) m0 old image.length name c0 (applyRecs env f' t' (decode env d.encode).1 s).2 := by
    rw [hrecs]
    refine h.applyRecs (fun p h1 h2 => .inr ⟨h1, h2⟩) f' t' _ ?_
    intro r hr
    rcases List.mem_append.1 hr with hr | hr
    · obtain ⟨m, hm, rfl⟩ := List.mem_map.1 hr
      cases m with
      | fromSnap b => trivial
      | toSnap b => trivial
      | size k => exact hd.size_only k hm
    · obtain ⟨m, hm, rfl⟩ := List.mem_map.1 hr
      have ht := hd.true_ m hm
      cases m with
      | zero st len => exact ⟨ht.2.1, fun p h1 h2 => .inl ⟨_, hm, h1, h2⟩⟩
      | data st pl =>
        show st + (pieces env.blk env.blk_pos pl).flatten.length ≤ _ ∧ _
        rw [(pieces_flatten _ _ _).1]
        exact ⟨ht.1, fun p h1 h2 => .inl ⟨_, hm, h1, h2⟩⟩
  unfold integrate
  dsimp only
  generalize applyRecs env f' t' (decode env d.encode).1 s = g at hk
  obtain ⟨g1, g2⟩ := g
  cases g1 with
  | error e => exact hk
  | ok u => dsimp only; split <;> exact hk

/-- What the writing phase of an incremental backup leaves. -/
structure Shares (cs : Nat) (d : Diff) (m0 : Meta) (new : Nat) (uuid : String) (w0 w : World) : Prop where
  /-- the mapping of the new image agrees with that of the base for each chunk the diff does not change -/
  mapping : ∀ m, w.metas.get? uuid = some (some m) → ∀ id, id * cs < new → (∀ pos, pos / cs = id → ¬ MayChange d m0.size new pos) →
    m.mapping.get? id = m0.mapping.get? id
  /-- without any change nothing is stored -/
  chunks : (∀ pos, ¬ MayChange d m0.size new pos) → ∀ h x, w.chunks.get? h = some x → w0.chunks.get? h = some x

/-- The writing phase of an incremental backup. -/
theorem writePhase_shares {env : Env} {o : Rbd} {uuid : String} {p : Rev} {s : Src} {m0 : Meta} {d : Diff} {f t c image : Bytes}
    (hu : s.w.metas.get? uuid = none) (hm : s.w.metas.get? p.uuid = some (some m0)) (hv : d.Valid) (hd : d.Describes f t c image)
    (ho : o.diffOut p.uuid = d.encode) : Shares env.cs d m0 image.length uuid s.w (writePhase env o uuid (some p) s).2 := by
  have hopen : openWrite s uuid (some p) = (.ok ⟨{ name := uuid, mode := wb, closed := false, pos := 0, size := m0.size, mapping := m0.mapping, chunks := [], stats := [] }, { s.w with metas := s.w.metas.set uuid (some m0) }⟩, { s.w with metas := s.w.metas.set uuid (some m0) }) := by
    have hhas : s.w.metas.has uuid = false := by unfold Dict.has; rw [hu]; rfl
    unfold openWrite copyParent
    simp only [hhas, Bool.false_eq_true, if_false, hm]
    unfold File.open
    rw [show ({ s.w with metas := s.w.metas.set uuid (some m0) } : World).metas.get? uuid = some (some m0) from Dict.get?_set_self _ _ _]
    simp [containsDistrusted_false, wb]
  have h0 : SameMap env (MayChange d m0.size image.length) m0.mapping m0.size image.length uuid s.w.chunks
      ⟨{ name := uuid, mode := wb, closed := false, pos := 0, size := m0.size, mapping := m0.mapping, chunks := [], stats := [] },
        { s.w with metas := s.w.metas.set uuid (some m0) }⟩ := by
    refine ⟨fun _ _ _ => rfl, (fun e he => by cases he), .inl (Nat.le_refl _), rfl, ?_, fun _ => rfl⟩
    intro m hm' id _ _
    have hm' : Dict.get? (s.w.metas.set uuid (some m0)) uuid = some (some m) := hm'
    rw [Dict.get?_set_self] at hm'
    cases hm'; rfl
  have h1 := integrate_kept hv hd (ascii (snapName p.uuid)) (ascii (snapName uuid)) h0
  have hres : SameMap env (MayChange d m0.size image.length) m0.mapping m0.size image.length uuid s.w.chunks
      ((integrate env d.encode (ascii (snapName p.uuid)) (ascii (snapName uuid))
        ⟨{ name := uuid, mode := wb, closed := false, pos := 0, size := m0.size, mapping := m0.mapping, chunks := [], stats := [] },
        { s.w with metas := s.w.metas.set uuid (some m0) }⟩).2.close env).2 := h1.close
  unfold writePhase
  rw [hopen]
  dsimp only
  unfold transfer
  dsimp only
  rw [ho]
  unfold closing
  generalize integrate env d.encode (ascii (snapName p.uuid)) (ascii (snapName uuid)) _ = g at hres
  obtain ⟨g1, g2⟩ := g
  dsimp only at hres ⊢
  generalize g2.close env = k at hres
  obtain ⟨k1, k2⟩ := k
  have fin : Shares env.cs d m0 image.length uuid s.w k2.w :=
    ⟨fun m hm id hid hno => hres.stored m hm id (Nat.le_of_lt hid) hno, fun hno h x hx => by
      have := hres.none_ hno
      dsimp only at this
      rw [← this]; exact hx⟩
  cases k1 <;> exact fin

/-- **C116** (shared chunks).  An incremental backup on the base `p` with the diff `d`, whatever its outcome: the new image consists of the same chunk files
as the base, except for chunks the diff says something about and chunks behind the old end; and if there are none, no chunk file is added to the store. -/
theorem C116_shares_chunks {env : Env} {L : List Bytes} (hL : CollFree env.H L) {s0 s : Sys} (hi : Initial s0) (hs : Steps env s0 s)
    (hlog : s.src.w.log ⊆ L) {af : Bool} {o : Rbd} {uuid : String} (ts : Int) (tags : Finset String) (hu : Fresh s uuid) {p : Rev}
    (hp : cephGetParent af ((s.prepared uuid ts tags).snapshot (newRev uuid ts tags)).ceph.snaps o.infoFails (s.prepared uuid ts tags).src.repo
      (newRev uuid ts tags) = .ok (some p))
    {m0 : Meta} (hm : s.src.w.metas.get? p.uuid = some (some m0)) {d : Diff} (hv : d.Valid) {c : Bytes}
    (hd : d.Describes (ascii (snapName p.uuid)) (ascii (snapName uuid)) c s.ceph.image) (ho : o.diffOut p.uuid = d.encode) :
    (∀ m, (runBackup env af o uuid ts tags s.connect).2.src.w.metas.get? uuid = some (some m) → ∀ id, id * env.cs < s.ceph.image.length →
      (∀ pos, pos / env.cs = id → ¬ MayChange d m0.size s.ceph.image.length pos) → m.mapping.get? id = m0.mapping.get? id) ∧
    ((∀ pos, ¬ MayChange d m0.size s.ceph.image.length pos) →
      ∀ h x, (runBackup env af o uuid ts tags s.connect).2.src.w.chunks.get? h = some x → s.src.w.chunks.get? h = some x) := by
  have hg := (Good.initial (env := env) hi).steps hL hs hlog
  rw [runBackup_eq hg hu]
  have hw := writePhase_shares (env := env) (o := o) (uuid := uuid) (p := p) (s := (s.prepared uuid ts tags).src) (m0 := m0) hu.image hm hv hd ho
  have key : Shares env.cs d m0 s.ceph.image.length uuid s.src.w (backup env af o (newRev uuid ts tags) (s.prepared uuid ts tags)).2.src.w := by
    have h0 : Shares env.cs d m0 s.ceph.image.length uuid s.src.w (s.prepared uuid ts tags).src.w := by
      refine ⟨fun m hm' => ?_, fun _ h x hx => hx⟩
      have hm' : s.src.w.metas.get? uuid = some (some m) := hm'
      rw [hu.image] at hm'; cases hm'
    have hsh : ∀ {w w' : World}, Shares env.cs d m0 s.ceph.image.length uuid s.src.w w → Shrunk w w' → Shares env.cs d m0 s.ceph.image.length uuid s.src.w w' :=
      fun h h' => ⟨fun m hm' => h.mapping m (by rw [← h'.metas]; exact hm'), fun hno k x hx => h.chunks hno k x (h'.chunks k x hx)⟩
    unfold backup
    split
    · exact h0
    split
    · exact h0
    dsimp only
    refine hsh ?_ (afterSnapshot_shrunk env o (newRev uuid ts tags) _ _)
    dsimp only
    unfold backupBody
    rw [show cephGetParent af ((s.prepared uuid ts tags).snapshot (newRev uuid ts tags)).ceph.snaps o.infoFails
      ((s.prepared uuid ts tags).snapshot (newRev uuid ts tags)).src.repo (newRev uuid ts tags) = .ok (some p) from hp]
    dsimp only
    have hw' : Shares env.cs d m0 s.ceph.image.length uuid s.src.w
        (writePhase env o (newRev uuid ts tags).uuid (some p) ((s.prepared uuid ts tags).snapshot (newRev uuid ts tags)).src).2 := ⟨hw.mapping, hw.chunks⟩
    generalize writePhase env o (newRev uuid ts tags).uuid (some p) ((s.prepared uuid ts tags).snapshot (newRev uuid ts tags)).src = g at hw'
    obtain ⟨g1, g2⟩ := g
    cases g1 with
    | error e => exact hw'
    | ok u =>
      dsimp only
      have ht := verifyPhase_ticked env o (newRev uuid ts tags).uuid (s.prepared uuid ts tags).ceph.image g2
      unfold Ticked at ht
      rw [ht]
      exact ⟨hw'.mapping, hw'.chunks⟩
  exact ⟨key.mapping, key.chunks⟩

/-- The diff from the first to the second image of the example. -/
def exDiff : Diff := ⟨[.size 8], [.data 4 [2, 2, 2, 2]]⟩

theorem exDiff_valid : exDiff.Valid := by
  refine ⟨?_, ?_⟩
  · intro m hm
    simp only [exDiff, List.mem_singleton] at hm
    subst hm
    show 8 < 2 ^ 64
    decide
  · intro r hr
    simp only [exDiff, List.mem_singleton] at hr
    subst hr
    show 4 < 2 ^ 64 ∧ 4 < 2 ^ 64
    decide

theorem exDiff_describes (f t : Bytes) : exDiff.Describes f t [0, 0, 0, 0, 1, 1, 1, 1] [0, 0, 0, 0, 2, 2, 2, 2] := by
  refine ⟨?_, ?_, by decide, ?_, ?_, ?_⟩
  · intro b hb; simp [exDiff] at hb
  · intro b hb; simp [exDiff] at hb
  · intro k hk
    simp only [exDiff, List.mem_singleton, MetaRec.size.injEq] at hk
    exact hk
  · intro r hr
    simp only [exDiff, List.mem_singleton] at hr
    subst hr
    refine ⟨by decide, ?_⟩
    intro i hi
    have hi : i < 4 := hi
    have : i = 0 ∨ i = 1 ∨ i = 2 ∨ i = 3 := by omega
    rcases this with rfl | rfl | rfl | rfl <;> rfl
  · intro p hp hne
    have hp : p < 8 := hp
    refine ⟨_, List.mem_singleton.2 rfl, ?_⟩
    show 4 ≤ p ∧ p < 4 + 4
    refine ⟨?_, by omega⟩
    by_contra hlt
    have : p = 0 ∨ p = 1 ∨ p = 2 ∨ p = 3 := by omega
    rcases this with rfl | rfl | rfl | rfl <;> exact hne rfl

/-- `rbd` with this diff. -/
def exDiffRbd : Rbd := { idealRbd [0, 0, 0, 0, 2, 2, 2, 2] [1] with diffOut := fun _ => exDiff.encode }

/-- The second backup shares the first chunk with the first one. -/
example (m0 m : Meta) (h0 : exChanged.src.w.metas.get? "a" = some (some m0))
    (h : (runBackup Test.env false exDiffRbd "b" 20 {"daily"} exChanged.connect).2.src.w.metas.get? "b" = some (some m)) :
    m.mapping.get? 0 = m0.mapping.get? 0 := by
  have hsize : m0.size = 8 := by
    have : (exChanged.src.w.metas.get? "a").map (fun x => x.map Meta.size) = some (some 8) := by decide +kernel
    rw [h0] at this
    exact Option.some.inj (Option.some.inj this)
  refine (C116_shares_chunks (env := Test.env) (Test.collFree _) exNew_initial exChanged_steps (fun _ hx => hx) (af := false) (o := exDiffRbd) 20 {"daily"}
    exChanged_fresh (p := finished (idealRbd [] []) (newRev "a" 10 {"daily"})) (by decide +kernel) (m0 := m0) h0 exDiff_valid
    (exDiff_describes _ _) rfl).1 m h 0 (by decide) ?_
  intro pos hpos hm
  have hpos : pos / 4 = 0 := hpos
  rcases hm with ⟨r, hr, hc⟩ | ⟨h1, _⟩
  · simp only [exDiff, List.mem_singleton] at hr
    subst hr
    have hc : 4 ≤ pos ∧ pos < 4 + 4 := hc
    omega
  · omega

/-- Both mappings exist. -/
example : ((runBackup Test.env false exDiffRbd "b" 20 {"daily"} exChanged.connect).2.src.w.metas.get? "b").isSome = true ∧
    (runBackup Test.env false exDiffRbd "b" 20 {"daily"} exChanged.connect).1 = 0 := by decide +kernel

end Verif.Backup
