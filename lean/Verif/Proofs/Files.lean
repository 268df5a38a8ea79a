import Verif.Model.Files
import Verif.Proofs.ReadOnlyWorld
import Verif.Proofs.DiffApply
/-! # Copying and comparing files -/
namespace Verif.Files
open Verif Verif.Chunked Verif.Spec Verif.Rbd

/-- A reading session on content `c` at position `pos`. -/
structure Rd (env : Env) (w : World) (s : S) (c : Bytes) (pos : Nat) : Prop where
  quiet : Quiet s
  r : R env s ⟨c, pos, true, false, false⟩
  tick : Ticked w s.w

theorem Rd.open {env : Env} {w : World} {name : String} {c : Bytes} (hw : WOK env w)
    (hd : OnDisk env w name c) : ∃ s, File.open w name rb = .ok s ∧ Rd env w s c 0 := by
  obtain ⟨s, h1, h2, h3, h4⟩ := open_ok hw hd rb
  exact ⟨s, h1, (Quiet.open rfl h1).1, h4, by rw [h2]; rfl⟩

theorem Rd.size {env : Env} {w : World} {s : S} {c : Bytes} {pos : Nat} (h : Rd env w s c pos) :
    s.f.size = c.length := h.r.rep.size
theorem Rd.pos {env : Env} {w : World} {s : S} {c : Bytes} {pos : Nat} (h : Rd env w s c pos) :
    s.f.pos = pos := h.r.pos

theorem Rd.log {env : Env} {w : World} {s : S} {c : Bytes} {pos : Nat} (h : Rd env w s c pos) :
    s.w.log = w.log := by rw [h.tick]

theorem Rd.read {env : Env} {w : World} (hL : CollFree env.H w.log) {s : S} {c : Bytes} {pos : Nat}
    (h : Rd env w s c pos) (n : Nat) :
    ∃ s', readS env n s = (.ok ((c.drop pos).take n), s') ∧
      Rd env w s' c (pos + ((c.drop pos).take n).length) := by
  obtain ⟨e1, e2, e3, e4, e5⟩ := h.quiet.step_ok hL (by rw [h.log]; exact fun _ h => h) h.r (.read (some n))
  have hf : (⟨c, pos, true, false, false⟩ : Flat).step (.read (some n)) =
      (⟨c, pos + ((c.drop pos).take n).length, true, false, false⟩, .ok (.bytes ((c.drop pos).take n))) := by
    simp [Flat.step, upTo]
  rw [hf] at e1 e2
  have e2' : (outOf Out.bytes (s.read env n)).2 = .ok (.bytes ((c.drop pos).take n)) := e2
  have e1' : R env (s.read env n).2 ⟨c, pos + ((c.drop pos).take n).length, true, false, false⟩ := e1
  have e3' : Quiet (s.read env n).2 := e3
  have e4' : Ticked s.w (s.read env n).2.w := e4
  unfold readS
  cases hr : s.read env n with
  | mk a s' =>
    rw [hr] at e1' e2' e3' e4'
    cases a with
    | error e => simp [outOf] at e2'
    | ok b =>
      simp [outOf] at e2'
      subst e2'
      exact ⟨s', rfl, e3', e1', h.tick.trans e4'⟩

theorem Rd.seek {env : Env} {w : World} (hL : CollFree env.H w.log) {s : S} {c : Bytes} {pos : Nat}
    (h : Rd env w s c pos) (o : Int) (wh : Whence) (t : Nat)
    (ht : (⟨c, pos, true, false, false⟩ : Flat).target o wh = some (t : Int)) (hle : t ≤ c.length) :
    ∃ s', s.seek env o wh = (.ok t, s') ∧ Rd env w s' c t := by
  obtain ⟨e1, e2, e3, e4, e5⟩ := h.quiet.step_ok hL (by rw [h.log]; exact fun _ h => h) h.r (.seek o wh)
  have hf : (⟨c, pos, true, false, false⟩ : Flat).step (.seek o wh) =
      (⟨c, t, true, false, false⟩, .ok (.nat t)) := by
    simp only [Flat.step, ht]
    rw [if_neg (by simp), if_neg (by omega), if_pos (by simpa using hle)]
    simp
  rw [hf] at e1 e2
  have e2' : (outOf Out.nat (s.seek env o wh)).2 = .ok (.nat t) := e2
  have e1' : R env (s.seek env o wh).2 ⟨c, t, true, false, false⟩ := e1
  have e3' : Quiet (s.seek env o wh).2 := e3
  have e4' : Ticked s.w (s.seek env o wh).2.w := e4
  cases hr : s.seek env o wh with
  | mk a s' =>
    rw [hr] at e1' e2' e3' e4'
    cases a with
    | error e => simp [outOf] at e2'
    | ok b =>
      simp [outOf] at e2'
      subst e2'
      exact ⟨s', rfl, e3', e1', h.tick.trans e4'⟩

/-- Seeking beyond the end of an image opened for reading fails. -/
theorem Rd.seek_beyond {env : Env} {w : World} (hL : CollFree env.H w.log) {s : S} {c : Bytes} {pos : Nat}
    (h : Rd env w s c pos) (t : Nat) (hgt : c.length < t) :
    (s.seek env t .set).1 = .error .assertion := by
  obtain ⟨e1, e2, e3, e4, e5⟩ := h.quiet.step_ok hL (by rw [h.log]; exact fun _ h => h) h.r (.seek t .set)
  have hf : ((⟨c, pos, true, false, false⟩ : Flat).step (.seek t .set)).2 = .error .assertion := by
    simp only [Flat.step, Flat.target]
    rw [if_neg (by simp), if_neg (by omega), if_neg (by simpa using hgt)]
    simp
  rw [hf] at e2
  have e2' : (outOf Out.nat (s.seek env t .set)).2 = .error .assertion := e2
  cases hr : s.seek env t .set with
  | mk a s' =>
    rw [hr] at e2'
    cases a with
    | error e => simp [outOf] at e2'; simp [e2']
    | ok b => simp [outOf] at e2'

theorem copyLoop_ok {env : Env} {w : World} (hL : CollFree env.H w.log) (fuel : Nat) :
    ∀ {s : S} {c : Bytes} {pos : Nat} (t : PFile), Rd env w s c pos → pos ≤ c.length →
      c.length - pos < fuel → t.pos = pos →
      ∃ s', copyLoop env fuel s t = (.ok (), s', ⟨writeAt t.content pos (c.drop pos), c.length⟩) ∧
        Rd env w s' c c.length := by
  induction fuel with
  | zero => intro s c pos t _ _ h; omega
  | succ n ih =>
    intro s c pos t h hp hf ht
    have hb := env.blk_pos
    obtain ⟨s1, e1, e2⟩ := h.read hL env.blk
    unfold copyLoop
    rw [e1]
    dsimp only
    by_cases hd : (c.drop pos).take env.blk = []
    · rw [if_pos hd]
      have hnil : c.drop pos = [] := by
        rcases List.take_eq_nil_iff.1 hd with h0 | h0
        · omega
        · exact h0
      have : c.length ≤ pos := by
        have := congrArg List.length hnil
        simp at this; omega
      have hpe : pos = c.length := by omega
      rw [hd] at e2
      simp only [List.length_nil, Nat.add_zero] at e2
      refine ⟨s1, ?_, by rw [← hpe]; exact e2⟩
      obtain ⟨tc, tp⟩ := t
      simp only at ht
      rw [hnil]; simp [writeAt, ht, hpe]
    · rw [if_neg hd]
      have hlen : ((c.drop pos).take env.blk).length = min env.blk (c.length - pos) := by simp
      have hpos : 0 < ((c.drop pos).take env.blk).length := List.length_pos_iff.2 hd
      obtain ⟨s2, g1, g2⟩ := ih (t.write ((c.drop pos).take env.blk)) e2 (by omega) (by omega)
        (by simp only [PFile.write, ht])
      refine ⟨s2, ?_, g2⟩
      rw [g1]
      simp only [PFile.write, ht]
      rw [writeAt_append]
      have : (c.drop pos).take env.blk ++ c.drop (pos + ((c.drop pos).take env.blk).length) = c.drop pos := by
        conv_rhs => rw [← List.take_append_drop env.blk (c.drop pos)]
        congr 1
        rw [List.drop_drop]
        by_cases h1 : env.blk ≤ c.length - pos
        · rw [hlen, Nat.min_eq_left h1]
        · rw [List.drop_eq_nil_of_le (by omega), List.drop_eq_nil_of_le (by omega)]
      rw [this]

theorem copy_ok {env : Env} {w : World} (hL : CollFree env.H w.log) {s : S} {c : Bytes} {pos : Nat}
    (h : Rd env w s c pos) (t : Bytes) :
    ∃ s', copy env s ⟨t, 0⟩ = (.ok (), s', ⟨c, c.length⟩) ∧ Rd env w s' c c.length := by
  unfold copy
  obtain ⟨s1, e1, e2⟩ := h.seek hL 0 .end_ c.length (by simp [Flat.target]) (Nat.le_refl _)
  rw [e1]
  dsimp only
  obtain ⟨s2, g1, g2⟩ := e2.seek hL 0 .set 0 (by simp [Flat.target]) (Nat.zero_le _)
  rw [g1]
  dsimp only
  obtain ⟨s3, k1, k2⟩ := copyLoop_ok hL (s2.f.size + 1) ⟨t, 0⟩ g2 (Nat.zero_le _) (by rw [g2.size]; omega) rfl
  rw [k1]
  dsimp only
  refine ⟨s3, ?_, k2⟩
  rw [k2.pos]
  simp only [PFile.truncate, List.drop_zero]
  have : (writeAt t 0 c).take c.length ++ zeros (c.length - (writeAt t 0 c).length) = c := by
    rw [writeAt_length]
    unfold writeAt
    by_cases hc : c = []
    · subst hc; simp [zeros]
    · simp [hc, zeros]
  rw [this]

theorem stdoutLoop_ok {env : Env} {w : World} (hL : CollFree env.H w.log) (fuel : Nat) :
    ∀ {s : S} {c : Bytes} {pos : Nat} (out : Bytes), Rd env w s c pos → pos ≤ c.length →
      c.length - pos < fuel →
      ∃ s', stdoutLoop env fuel s out = (.ok (), s', out ++ c.drop pos) := by
  induction fuel with
  | zero => intro s c pos t _ _ h; omega
  | succ n ih =>
    intro s c pos out h hp hf
    have hb := env.blk_pos
    obtain ⟨s1, e1, e2⟩ := h.read hL env.blk
    unfold stdoutLoop
    rw [e1]
    dsimp only
    by_cases hd : (c.drop pos).take env.blk = []
    · rw [if_pos hd]
      have hnil : c.drop pos = [] := by
        rcases List.take_eq_nil_iff.1 hd with h0 | h0
        · omega
        · exact h0
      exact ⟨s1, by rw [hnil, List.append_nil]⟩
    · rw [if_neg hd]
      have hlen : ((c.drop pos).take env.blk).length = min env.blk (c.length - pos) := by simp
      have hpos : 0 < ((c.drop pos).take env.blk).length := List.length_pos_iff.2 hd
      obtain ⟨s2, g1⟩ := ih (out ++ (c.drop pos).take env.blk) e2 (by omega) (by omega)
      refine ⟨s2, ?_⟩
      rw [g1, List.append_assoc]
      have : (c.drop pos).take env.blk ++ c.drop (pos + ((c.drop pos).take env.blk).length) = c.drop pos := by
        conv_rhs => rw [← List.take_append_drop env.blk (c.drop pos)]
        congr 1
        rw [List.drop_drop]
        by_cases h1 : env.blk ≤ c.length - pos
        · rw [hlen, Nat.min_eq_left h1]
        · rw [List.drop_eq_nil_of_le (by omega), List.drop_eq_nil_of_le (by omega)]
      rw [this]

/-! ### Sampled comparison -/

/-- Block `b` of a byte string. -/
def blockOf (bs : Nat) (c : Bytes) (b : Nat) : Bytes := (c.drop (b * bs)).take bs

theorem read_block (bs b : Nat) (fc : Bytes) (fp : Nat) :
    ((⟨fc, fp⟩ : PFile).seek (b * bs)).read bs =
      (blockOf bs fc b, ⟨fc, b * bs + (blockOf bs fc b).length⟩) := rfl

theorem roughLoop_true {env : Env} {w : World} (hL : CollFree env.H w.log) (bs : Nat) (expired : Nat → Bool)
    (a : Bytes) (sample : List Nat) : ∀ {s : S} {c : Bytes} {pos : Nat} (i : Nat) (f : PFile),
      Rd env w s c pos → f.content = a → (∀ b ∈ sample, b * bs ≤ c.length ∧ blockOf bs a b = blockOf bs c b) →
      ∃ s', roughLoop env bs expired sample i f s = (.ok (true, []), s') ∧ ∃ p, Rd env w s' c p := by
  induction sample with
  | nil => intro s c pos i f h _ _; exact ⟨s, rfl, pos, h⟩
  | cons b l ih =>
    intro s c pos i f h hf hs
    obtain ⟨fc, fp⟩ := f
    obtain rfl : fc = a := hf
    unfold roughLoop
    split
    · exact ⟨s, rfl, pos, h⟩
    · obtain ⟨hb1, hb2⟩ := hs b (by simp)
      obtain ⟨s1, e1, e2⟩ := h.seek hL (b * bs : Nat) .set (b * bs) (by simp [Flat.target]) hb1
      rw [e1]
      dsimp only
      obtain ⟨s2, g1, g2⟩ := e2.read hL bs
      rw [g1]
      rw [read_block]
      dsimp only
      rw [if_pos (show _ = (c.drop (b * bs)).take bs from hb2)]
      exact ih (i + 1) _ g2 rfl (fun x hx => hs x (by simp [hx]))

/-- If the loop answers "equal" then every block it looked at before the time limit is equal. -/
theorem roughLoop_sound {env : Env} {w : World} (hL : CollFree env.H w.log) (bs : Nat) (expired : Nat → Bool)
    (a : Bytes) (sample : List Nat) : ∀ {s s' : S} {c : Bytes} {pos : Nat} (i : Nat) (f : PFile) (l : List Mismatch),
      Rd env w s c pos → f.content = a → roughLoop env bs expired sample i f s = (.ok (true, l), s') →
      ∀ k b, sample[k]? = some b → (∀ j ≤ k, expired (i + j) = false) → blockOf bs a b = blockOf bs c b := by
  induction sample with
  | nil => intro s s' c pos i f l _ _ _ k b hk; simp at hk
  | cons x rest ih =>
    intro s s' c pos i f l h hf hr k b hk hexp
    obtain ⟨fc, fp⟩ := f
    obtain rfl : fc = a := hf
    unfold roughLoop at hr
    have h0 := hexp 0 (Nat.zero_le _)
    rw [Nat.add_zero] at h0
    rw [if_neg (by simp [h0])] at hr
    by_cases hx : x * bs ≤ c.length
    · obtain ⟨s1, e1, e2⟩ := h.seek hL (x * bs : Nat) .set (x * bs) (by simp [Flat.target]) hx
      rw [e1] at hr
      dsimp only at hr
      obtain ⟨s2, g1, g2⟩ := e2.read hL bs
      rw [g1] at hr
      rw [read_block] at hr
      dsimp only at hr
      split at hr
      case isFalse => simp at hr
      case isTrue hne =>
        have heq : blockOf bs fc x = blockOf bs c x := hne
        cases k with
        | zero => simp at hk; subst hk; exact heq
        | succ k =>
          simp only [List.getElem?_cons_succ] at hk
          refine ih (i + 1) _ l g2 rfl hr k b hk ?_
          intro j hj
          have := hexp (j + 1) (by omega)
          rw [Nat.add_assoc, Nat.add_comm 1 j]; exact this
    · have := h.seek_beyond hL (x * bs) (by omega)
      cases hsk : s.seek env (x * bs : Nat) .set with
      | mk q s1 =>
        rw [hsk] at this hr
        simp only at this
        subst this
        simp at hr

/-- What a "different" answer reports is the first differing block. -/
theorem roughLoop_report {env : Env} {w : World} (hL : CollFree env.H w.log) (bs : Nat) (expired : Nat → Bool)
    (a : Bytes) (sample : List Nat) : ∀ {s : S} {c : Bytes} {pos : Nat} (i : Nat) (f : PFile),
      Rd env w s c pos → f.content = a → (∀ b ∈ sample, b * bs ≤ c.length) →
      ∀ k b, sample[k]? = some b → (∀ j ≤ k, expired (i + j) = false) → blockOf bs a b ≠ blockOf bs c b →
      ∃ s' b', roughLoop env bs expired sample i f s =
          (.ok (false, [(blockOf bs a b', blockOf bs c b', b' * bs)]), s') ∧
        b' ∈ sample.take (k + 1) ∧ blockOf bs a b' ≠ blockOf bs c b' := by
  induction sample with
  | nil => intro s c pos i f _ _ _ k b hk; simp at hk
  | cons x rest ih =>
    intro s c pos i f h hf hs k b hk hexp hne
    obtain ⟨fc, fp⟩ := f
    obtain rfl : fc = a := hf
    unfold roughLoop
    have h0 := hexp 0 (Nat.zero_le _)
    rw [Nat.add_zero] at h0
    rw [if_neg (by simp [h0])]
    obtain ⟨s1, e1, e2⟩ := h.seek hL (x * bs : Nat) .set (x * bs) (by simp [Flat.target]) (hs x (by simp))
    rw [e1]
    dsimp only
    obtain ⟨s2, g1, g2⟩ := e2.read hL bs
    rw [g1]
    rw [read_block]
    dsimp only
    by_cases hx : blockOf bs fc x = blockOf bs c x
    · have hx' := hx
      rw [if_pos (show _ = (c.drop (x * bs)).take bs from hx')]
      cases k with
      | zero => simp at hk; subst hk; exact absurd hx hne
      | succ k =>
        simp only [List.getElem?_cons_succ] at hk
        obtain ⟨s', b', r1, r2, r3⟩ := ih (i + 1)
          ⟨fc, x * bs + (blockOf bs fc x).length⟩ g2 rfl (fun y hy => hs y (by simp [hy])) k b hk
          (by intro j hj
              have := hexp (j + 1) (by omega)
              rw [Nat.add_assoc, Nat.add_comm 1 j]; exact this) hne
        refine ⟨s', b', r1, ?_, r3⟩
        rw [List.take_succ_cons]
        exact List.mem_cons_of_mem _ r2
    · have hx' := hx
      rw [if_neg (show ¬ _ = (c.drop (x * bs)).take bs from hx')]
      refine ⟨s2, x, rfl, by simp, hx⟩

/-! ### Full comparison -/

/-- Reports added by the loop. -/
theorem equalLoop_ok (cs : Nat) (hcs : 0 < cs) (fuel : Nat) : ∀ (ac bc : Bytes) (ap bp pos : Nat) (reports : List Mismatch),
    ac.length - ap < fuel → ap = min ac.length pos → bp = min bc.length pos →
    ∃ new, equalLoop cs fuel ⟨ac, ap⟩ ⟨bc, bp⟩ pos reports = .ok (reports ++ new) ∧
      (∀ m ∈ new, m.1 ≠ m.2.1 ∧ m.1 = (ac.drop m.2.2).take cs ∧ m.2.1 = (bc.drop m.2.2).take cs ∧ pos ≤ m.2.2) ∧
      (new = [] → ac.drop pos = bc.drop pos) ∧
      (new.map (·.2.2)).Pairwise (· < ·) := by
  induction fuel with
  | zero => intro ac bc ap bp pos r h; omega
  | succ n ih =>
    intro ac bc ap bp pos reports hf hap hbp
    have hA : (ac.drop ap).take cs = (ac.drop pos).take cs := by
      by_cases h : pos ≤ ac.length
      · rw [hap, Nat.min_eq_right h]
      · rw [List.drop_eq_nil_of_le (by omega), List.drop_eq_nil_of_le (by omega)]
    have hB : (bc.drop bp).take cs = (bc.drop pos).take cs := by
      by_cases h : pos ≤ bc.length
      · rw [hbp, Nat.min_eq_right h]
      · rw [List.drop_eq_nil_of_le (by omega), List.drop_eq_nil_of_le (by omega)]
    unfold equalLoop
    dsimp only [PFile.read]
    rw [hA, hB]
    by_cases ha : (ac.drop pos).take cs = []
    · rw [if_pos ha]
      have hnil : ac.drop pos = [] := by
        rcases List.take_eq_nil_iff.1 ha with h0 | h0
        · omega
        · exact h0
      by_cases hne : (ac.drop pos).take cs ≠ (bc.drop pos).take cs
      · rw [if_pos hne]
        refine ⟨[((ac.drop pos).take cs, (bc.drop pos).take cs, pos)], rfl, ?_, by simp, by simp⟩
        intro m hm
        simp only [List.mem_singleton] at hm
        subst hm
        exact ⟨hne, rfl, rfl, Nat.le_refl _⟩
      · rw [if_neg hne]
        refine ⟨[], by simp, by simp, ?_, by simp⟩
        intro _
        have h2 : (bc.drop pos).take cs = [] := by
          by_contra h; exact hne (by rw [ha]; exact fun hh => h hh.symm)
        rw [hnil]
        rcases List.take_eq_nil_iff.1 h2 with h0 | h0
        · omega
        · exact h0.symm
    · rw [if_neg ha]
      have hpos : 0 < ((ac.drop pos).take cs).length := List.length_pos_iff.2 ha
      have hlen : ((ac.drop pos).take cs).length = min cs (ac.length - pos) := by simp
      have hlenb : ((bc.drop pos).take cs).length = min cs (bc.length - pos) := by simp
      obtain ⟨new, h1, h2, h3, h4⟩ := ih ac bc (ap + ((ac.drop pos).take cs).length)
        (bp + ((bc.drop pos).take cs).length) (pos + cs)
        (if (ac.drop pos).take cs ≠ (bc.drop pos).take cs then
          reports ++ [((ac.drop pos).take cs, (bc.drop pos).take cs, pos)] else reports)
        (by omega) (by omega) (by omega)
      rw [h1]
      by_cases hne : (ac.drop pos).take cs ≠ (bc.drop pos).take cs
      · rw [if_pos hne]
        refine ⟨((ac.drop pos).take cs, (bc.drop pos).take cs, pos) :: new, by simp, ?_, by simp, ?_⟩
        · intro m hm
          simp only [List.mem_cons] at hm
          rcases hm with hm | hm
          · subst hm; exact ⟨hne, rfl, rfl, Nat.le_refl _⟩
          · obtain ⟨m1, m2, m3, m4⟩ := h2 m hm
            exact ⟨m1, m2, m3, by omega⟩
        · simp only [List.map_cons, List.pairwise_cons]
          refine ⟨?_, h4⟩
          intro x hx
          obtain ⟨m, hm, rfl⟩ := List.mem_map.1 hx
          have := (h2 m hm).2.2.2
          omega
      · rw [if_neg hne]
        refine ⟨new, rfl, ?_, ?_, h4⟩
        · intro m hm
          obtain ⟨m1, m2, m3, m4⟩ := h2 m hm
          exact ⟨m1, m2, m3, by omega⟩
        · intro hn
          have h5 := h3 hn
          rw [← List.drop_drop, ← List.drop_drop] at h5
          have h6 : (ac.drop pos).take cs = (bc.drop pos).take cs := by
            by_contra h; exact hne h
          rw [← List.take_append_drop cs (ac.drop pos), ← List.take_append_drop cs (bc.drop pos), h6, h5]

/-! ### copy_overwrite -/

/-- The invariant of `copy_overwrite`: below `pos` the target, padded with zeros, is the source; above,
it is the old target; only regions that differed were touched. -/
structure OverOK (ps : Nat) (src old : Bytes) (o : Over) (pos : Nat) : Prop where
  source : o.source = ⟨src, pos⟩
  le : pos ≤ src.length
  low : ∀ i < pos, (o.target.content[i]?).getD 0 = (src[i]?).getD 0
  high : ∀ i, pos ≤ i → o.target.content[i]? = old[i]?
  aligned : pos % ps = 0 ∨ pos = src.length
  touched : ∀ t ∈ o.touched, t.1 % ps = 0 ∧ t.2 = min ps (src.length - t.1) ∧ 0 < t.2 ∧
    (src.drop t.1).take t.2 ≠ (old.drop t.1).take t.2

/-- Content after a block was written or punched at `pos`. -/
theorem over_content {t : Bytes} {pos : Nat} {d : Bytes} {cut : Bool} (hd : d ≠ [])
    (hz : cut = true → d = zeros d.length) (i : Nat) :
    let t' := if cut then (writeAt t pos d).take t.length else writeAt t pos d
    (i < pos → (t'[i]?).getD 0 = (t[i]?).getD 0) ∧
    (pos ≤ i → i < pos + d.length → (t'[i]?).getD 0 = (d[i - pos]?).getD 0) ∧
    (pos + d.length ≤ i → t'[i]? = t[i]?) := by
  have key := getElem?_writeAt t pos d i
  rw [if_neg hd] at key
  cases cut with
  | false =>
    simp only [Bool.false_eq_true, if_false]
    refine ⟨?_, ?_, ?_⟩
    · intro h
      rw [key, if_pos h]
      split
      · rfl
      · rename_i h2
        rw [List.getElem?_eq_none (by omega)]; rfl
    · intro h1 h2
      rw [key, if_neg (by omega), if_pos h2]
    · intro h
      rw [key, if_neg (by omega), if_neg (by omega)]
  | true =>
    simp only [if_true]
    have hz := hz rfl
    rw [List.getElem?_take]
    by_cases hlt : i < t.length
    · rw [if_pos hlt]
      refine ⟨?_, ?_, ?_⟩
      · intro h
        rw [key, if_pos h, if_pos hlt]
      · intro h1 h2
        rw [key, if_neg (by omega), if_pos h2]
      · intro h
        rw [key, if_neg (by omega), if_neg (by omega)]
    · rw [if_neg hlt]
      have hn : t[i]? = none := List.getElem?_eq_none (by omega)
      refine ⟨fun _ => by rw [hn], ?_, fun _ => hn.symm⟩
      intro h1 h2
      rw [hz, zeros_getElem?, if_pos (by omega)]
      rfl

theorem overStep_ok {ps : Nat} (hps : 0 < ps) (falloc : Bool) {src old : Bytes} {o : Over} {pos : Nat}
    (h : OverOK ps src old o pos) :
    if pos = src.length then overStep ps falloc o = .ok (true, o)
    else ∃ o', overStep ps falloc o = .ok (false, o') ∧ OverOK ps src old o' (pos + min ps (src.length - pos)) := by
  obtain ⟨os, ot, tch⟩ := o
  obtain ⟨tc, tp⟩ := ot
  have hsrc := h.source
  simp only at hsrc
  subst hsrc
  have hle := h.le
  have hlen : ((src.drop pos).take ps).length = min ps (src.length - pos) := by simp
  split
  · rename_i heq
    unfold overStep
    have : src.drop pos = [] := List.drop_eq_nil_of_le (by omega)
    simp [overRead, PFile.read, this]
  · rename_i hne
    have hal : pos % ps = 0 := by rcases h.aligned with h | h; exact h; exact absurd h hne
    have hch : (src.drop pos).take ps ≠ [] := by
      intro hh; rw [hh] at hlen; simp at hlen; omega
    have hcmp : (tc.drop pos).take ((src.drop pos).take ps).length =
        (old.drop pos).take ((src.drop pos).take ps).length := by
      congr 1
      apply List.ext_getElem?
      intro i
      rw [List.getElem?_drop, List.getElem?_drop]
      exact h.high _ (by omega)
    have hal' : (pos + min ps (src.length - pos)) % ps = 0 ∨ pos + min ps (src.length - pos) = src.length := by
      by_cases hh : ps ≤ src.length - pos
      · left; rw [Nat.min_eq_left hh, Nat.add_mod_right]; exact hal
      · right; omega
    have hmin : min ps (min ps (src.length - pos)) = min ps (src.length - pos) := by omega
    have hblock : (src.drop pos).take (min ps (src.length - pos)) = (src.drop pos).take ps := by
      apply List.ext_getElem?
      intro i
      rw [List.getElem?_take, List.getElem?_take]
      by_cases hi : i < ps
      · rw [if_pos hi]
        split
        · rfl
        · rw [List.getElem?_drop, List.getElem?_eq_none (by omega)]
      · rw [if_neg hi, if_neg (by omega)]
    have hget : ∀ i, pos ≤ i → i < pos + min ps (src.length - pos) →
        ((src.drop pos).take ps)[i - pos]? = src[i]? := by
      intro i h1 h2
      rw [List.getElem?_take, if_pos (by omega), List.getElem?_drop]
      congr 1; omega
    -- a write or punch
    have hwr : ∀ (cut : Bool), (cut = true → (src.drop pos).take ps = zeros ((src.drop pos).take ps).length) →
        (src.drop pos).take ps ≠ (tc.drop pos).take ((src.drop pos).take ps).length → ∀ tp',
        OverOK ps src old ⟨⟨src, pos + ((src.drop pos).take ps).length⟩,
          ⟨if cut then (writeAt tc pos ((src.drop pos).take ps)).take tc.length
            else writeAt tc pos ((src.drop pos).take ps), tp'⟩,
          tch ++ [(pos, ((src.drop pos).take ps).length)]⟩ (pos + min ps (src.length - pos)) := by
      intro cut hz hdiff tp'
      have hoc := fun i => over_content (t := tc) (pos := pos) (cut := cut) hch hz i
      refine ⟨by rw [hlen], by omega, ?_, ?_, hal', ?_⟩
      · intro i hi
        by_cases hip : i < pos
        · rw [(hoc i).1 hip]; exact h.low i hip
        · rw [(hoc i).2.1 (by omega) (by omega), hget i (by omega) hi]
      · intro i hi
        rw [(hoc i).2.2 (by omega)]
        exact h.high i (by omega)
      · intro t ht
        rcases List.mem_append.1 ht with ht | ht
        · exact h.touched t ht
        · simp only [List.mem_singleton] at ht
          subst ht
          dsimp only
          refine ⟨hal, hlen, by omega, ?_⟩
          rw [← hcmp]
          rw [hlen, hblock]; rw [hlen] at hdiff
          exact hdiff
    have hstep : overStep ps falloc ⟨⟨src, pos⟩, ⟨tc, tp⟩, tch⟩ =
        overRead ps falloc pos ((src.drop pos).take ps) ⟨src, pos + ((src.drop pos).take ps).length⟩
          ⟨⟨src, pos⟩, ⟨tc, tp⟩, tch⟩ := rfl
    have hread : overBlock ps falloc pos ((src.drop pos).take ps) ⟨src, pos + ((src.drop pos).take ps).length⟩
          (((⟨tc, tp⟩ : PFile).seek pos).read ((src.drop pos).take ps).length).1
          (((⟨tc, tp⟩ : PFile).seek pos).read ((src.drop pos).take ps).length).2 tch =
        overBlock ps falloc pos ((src.drop pos).take ps) ⟨src, pos + ((src.drop pos).take ps).length⟩
          ((tc.drop pos).take ((src.drop pos).take ps).length)
          ⟨tc, pos + ((tc.drop pos).take ((src.drop pos).take ps).length).length⟩ tch := rfl
    rw [hstep, overRead, if_neg hch]
    dsimp only
    rw [hread, overBlock]
    split
    · rename_i hdiff
      have hdiff' : (src.drop pos).take ps ≠ (tc.drop pos).take ((src.drop pos).take ps).length := by
        rcases hdiff with h1 | h1
        · rw [h1]; exact hch
        · exact h1
      split
      · rename_i hz
        have hzl : (src.drop pos).take ps = zeros ((src.drop pos).take ps).length := by
          rw [hz]; simp
        unfold PFile.punchHole
        rw [if_neg (by omega)]
        cases falloc with
        | true =>
          rw [if_pos rfl]
          refine ⟨_, rfl, ?_⟩
          have := hwr true (fun _ => hzl) hdiff' (pos + ((tc.drop pos).take ((src.drop pos).take ps).length).length)
          rw [if_pos rfl] at this
          rw [← hzl]
          exact this
        | false =>
          rw [if_neg (by simp)]
          refine ⟨_, rfl, ?_⟩
          have := hwr false (fun _ => hzl) hdiff' (pos + ((tc.drop pos).take ((src.drop pos).take ps).length).length)
          rw [if_neg (by simp)] at this
          rw [← hzl]
          exact this
      · refine ⟨_, rfl, ?_⟩
        have := hwr false (by simp) hdiff' (pos + ((src.drop pos).take ps).length)
        rw [if_neg (by simp)] at this
        exact this
    · rename_i hsame
      have hsame' : (src.drop pos).take ps = (tc.drop pos).take ((src.drop pos).take ps).length := by
        by_contra hh; exact hsame (.inr hh)
      refine ⟨_, rfl, ⟨by rw [hlen], by omega, ?_, ?_, hal', h.touched⟩⟩
      · intro i hi
        by_cases hip : i < pos
        · exact h.low i hip
        · rw [← hget i (by omega) hi, hsame', List.getElem?_take, if_pos (by omega), List.getElem?_drop]
          dsimp only
          congr 2; omega
      · intro i hi
        exact h.high i (by omega)

theorem overLoop_ok {ps : Nat} (hps : 0 < ps) (falloc : Bool) {src old : Bytes} (fuel : Nat) :
    ∀ {o : Over} {pos : Nat}, OverOK ps src old o pos → src.length - pos < fuel →
      ∃ o', overLoop ps falloc fuel o = .ok o' ∧ OverOK ps src old o' src.length := by
  induction fuel with
  | zero => intro o pos _ h; omega
  | succ n ih =>
    intro o pos h hf
    have hle := h.le
    have hs := overStep_ok hps falloc h
    unfold overLoop
    by_cases he : pos = src.length
    · rw [if_pos he] at hs
      rw [hs]
      exact ⟨o, rfl, he ▸ h⟩
    · rw [if_neg he] at hs
      obtain ⟨o', h1, h2⟩ := hs
      rw [h1]
      exact ih h2 (by omega)

theorem copyOverwrite_ok {ps : Nat} (hps : 0 < ps) (falloc : Bool) (source target : PFile) :
    ∃ t l, copyOverwrite ps falloc source target = .ok (t, l) ∧ t.content = source.content ∧
      ∀ r ∈ l, r.1 % ps = 0 ∧ r.2 = min ps (source.content.length - r.1) ∧ 0 < r.2 ∧
        (source.content.drop r.1).take r.2 ≠ (target.content.drop r.1).take r.2 := by
  obtain ⟨src, sp⟩ := source
  obtain ⟨old, tp⟩ := target
  have h0 : OverOK ps src old ⟨(⟨src, sp⟩ : PFile).seek 0, ⟨old, tp⟩, []⟩ 0 :=
    ⟨rfl, Nat.zero_le _, by omega, fun _ _ => rfl, .inl (Nat.zero_mod _), by simp⟩
  obtain ⟨o, h1, h2⟩ := overLoop_ok hps falloc (src.length + 1) h0 (by omega)
  unfold copyOverwrite
  simp only
  rw [h1]
  refine ⟨_, _, rfl, ?_, h2.touched⟩
  simp only [PFile.truncate, h2.source]
  apply List.ext_getElem?
  intro i
  by_cases hi : i < src.length
  · have := h2.low i hi
    rw [List.getElem?_append]
    by_cases hl : i < o.target.content.length
    · rw [if_pos (by simp; omega), List.getElem?_take, if_pos hi]
      rw [List.getElem?_eq_getElem hl, List.getElem?_eq_getElem hi] at this ⊢
      simpa using this
    · rw [if_neg (by simp; omega), zeros_getElem?, if_pos (by simp; omega)]
      rw [List.getElem?_eq_none (by omega : o.target.content.length ≤ i), List.getElem?_eq_getElem hi] at this
      rw [List.getElem?_eq_getElem hi]
      simpa using this
  · rw [List.getElem?_eq_none (by omega : src.length ≤ i)]
    apply List.getElem?_eq_none
    simp; omega

end Verif.Files
