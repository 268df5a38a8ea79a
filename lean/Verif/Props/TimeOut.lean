import Verif.Model.TimeOut
/-!
# C96: waiting for a snapshot
-/
namespace Verif.TimeOut
open Verif Verif.Consul

/-! ## Specification -/

/-- Nothing takes negative time. -/
structure Forward (e : Env) : Prop where
  extra : ∀ i, 0 ≤ e.extra i
  dur : ∀ i, 0 ≤ e.dur i

/-- Listings take at most `d`, sleeping takes at most `x` longer than asked for. -/
structure Within (e : Env) (d x : Int) : Prop where
  dur : ∀ i, e.dur i ≤ d
  extra : ∀ i, e.extra i ≤ x

/-- Consecutive elements are at least `gap` apart. -/
def Apart (gap : Int) : List Int → Prop
  | a :: b :: rest => a + gap ≤ b ∧ Apart gap (b :: rest)
  | _ => True

/-! ## Lemmas -/

theorem tick_cases (t : T) (now : Int) :
    (t.cutoff ≤ now ∧ t.tick now = none) ∨
    (now < t.cutoff ∧ t.first = true ∧ t.tick now = some (⟨t.cutoff, t.interval, false⟩, 0)) ∨
    (now < t.cutoff ∧ t.first = false ∧ t.tick now = some (t, t.interval)) := by
  unfold T.tick
  by_cases h : t.cutoff ≤ now
  · rw [if_pos (by omega)]; exact .inl ⟨h, rfl⟩
  · rw [if_neg (by omega)]
    cases hf : t.first with
    | true => rw [if_pos rfl]; exact .inr (.inl ⟨by omega, rfl, rfl⟩)
    | false => rw [if_neg (by decide)]; exact .inr (.inr ⟨by omega, rfl, rfl⟩)

theorem slept_ge {e : Env} (he : Forward e) (i : Nat) {d : Int} : d ≤ slept e i d := by
  unfold slept
  have := he.extra i
  split <;> omega

theorem slept_le {e : Env} {d x : Int} (hw : Within e d x) (hx : 0 ≤ x) (i : Nat) {y : Int} (hy : 0 ≤ y) : slept e i y ≤ y + x := by
  unfold slept
  have := hw.extra i
  split <;> omega

/-- The cases of a round. -/
theorem loop_cases (e : Env) (fuel i : Nat) (t : T) (now : Int) :
    (t.cutoff ≤ now ∧ loop e (fuel + 1) i t now = ⟨some .timeout, [], now⟩) ∨
    (now < t.cutoff ∧ ∃ delay t', t.tick now = some (t', delay) ∧ t' = ⟨t.cutoff, t.interval, false⟩ ∧
      delay = (if t.first then 0 else t.interval) ∧
      ((e.look i (now + slept e i delay) = .found ∧
          loop e (fuel + 1) i t now = ⟨some .seen, [now + slept e i delay], now + slept e i delay + e.dur i⟩) ∨
       (e.look i (now + slept e i delay) = .fails ∧
          loop e (fuel + 1) i t now = ⟨some .lsFails, [now + slept e i delay], now + slept e i delay + e.dur i⟩) ∨
       (e.look i (now + slept e i delay) = .notFound ∧
          loop e (fuel + 1) i t now = (loop e fuel (i + 1) t' (now + slept e i delay + e.dur i)).before (now + slept e i delay)))) := by
  rw [loop]
  rcases tick_cases t now with ⟨h1, h2⟩ | ⟨h1, h2, h3⟩ | ⟨h1, h2, h3⟩
  · left; rw [h2]; exact ⟨h1, rfl⟩
  · right
    refine ⟨h1, 0, _, h3, rfl, by rw [h2]; rfl, ?_⟩
    rw [h3]
    simp only [round]
    cases hl : e.look i (now + slept e i 0)
    · exact .inl ⟨rfl, rfl⟩
    · exact .inr (.inr ⟨rfl, rfl⟩)
    · exact .inr (.inl ⟨rfl, rfl⟩)
  · right
    refine ⟨h1, t.interval, _, h3, by obtain ⟨a, b, c⟩ := t; cases h2; rfl, by rw [h2]; rfl, ?_⟩
    rw [h3]
    simp only [round]
    cases hl : e.look i (now + slept e i t.interval)
    · exact .inl ⟨rfl, rfl⟩
    · exact .inr (.inr ⟨rfl, rfl⟩)
    · exact .inr (.inl ⟨rfl, rfl⟩)

/-- What the listings have shown. -/
theorem loop_looks (e : Env) : ∀ (fuel i : Nat) (t : T) (now : Int),
    let r := loop e fuel i t now
    (r.poll = some .timeout → ∀ j x, r.looks[j]? = some x → e.look (i + j) x = .notFound) ∧
    (r.poll = some .seen → ∃ j x, r.looks[j]? = some x ∧ e.look (i + j) x = .found) ∧
    (r.poll = some .lsFails → ∃ j x, r.looks[j]? = some x ∧ e.look (i + j) x = .fails) ∧
    (∀ j x, r.looks[j]? = some x → j + 1 < r.looks.length → e.look (i + j) x = .notFound)
  | 0, i, t, now => by simp [loop]
  | fuel + 1, i, t, now => by
    dsimp only
    rcases loop_cases e fuel i t now with ⟨_, h⟩ | ⟨_, delay, t', _, _, _, ⟨hl, h⟩ | ⟨hl, h⟩ | ⟨hl, h⟩⟩
    · rw [h]; simp
    · rw [h]
      refine ⟨fun h => (by cases h), fun _ => ⟨0, _, rfl, hl⟩, fun h => (by cases h), fun j x _ hj => ?_⟩
      simp at hj
    · rw [h]
      refine ⟨fun h => (by cases h), fun h => (by cases h), fun _ => ⟨0, _, rfl, hl⟩, fun j x _ hj => ?_⟩
      simp at hj
    · obtain ⟨h1, h2, h3, h4⟩ := loop_looks e fuel (i + 1) t' (now + slept e i delay + e.dur i)
      rw [h]
      generalize loop e fuel (i + 1) t' (now + slept e i delay + e.dur i) = r at *
      unfold Result.before
      dsimp only
      refine ⟨fun hp j x hx => ?_, fun hp => ?_, fun hp => ?_, fun j x hx hj => ?_⟩
      · cases j with
        | zero => cases hx; exact hl
        | succ j =>
          have := h1 hp j x hx
          rwa [show i + 1 + j = i + (j + 1) by omega] at this
      · obtain ⟨j, x, hx, hf⟩ := h2 hp
        exact ⟨j + 1, x, hx, by rwa [show i + 1 + j = i + (j + 1) by omega] at hf⟩
      · obtain ⟨j, x, hx, hf⟩ := h3 hp
        exact ⟨j + 1, x, hx, by rwa [show i + 1 + j = i + (j + 1) by omega] at hf⟩
      · cases j with
        | zero => cases hx; exact hl
        | succ j =>
          have := h4 j x hx (by simpa using hj)
          rwa [show i + 1 + j = i + (j + 1) by omega] at this

theorem Apart.cons {gap a : Int} {l : List Int} (h : Apart gap l) (ha : ∀ x ∈ l, a + gap ≤ x) : Apart gap (a :: l) := by
  cases l with
  | nil => trivial
  | cons b l => exact ⟨ha b (by simp), h⟩

/-- When the listings start. -/
theorem loop_times {e : Env} (he : Forward e) : ∀ (fuel i : Nat) (t : T) (now : Int), 0 < t.interval →
    let r := loop e fuel i t now
    (∀ x ∈ r.looks, (if t.first then now else now + t.interval) ≤ x ∧ x ≤ r.endsAt) ∧ Apart t.interval r.looks ∧ now ≤ r.endsAt ∧
    (r.poll = some .timeout → t.cutoff ≤ r.endsAt)
  | 0, i, t, now, _ => by simp [loop, Apart]
  | fuel + 1, i, t, now, ht => by
    dsimp only
    rcases loop_cases e fuel i t now with ⟨hc, h⟩ | ⟨_, delay, t', _, e1, e2, h'⟩
    · rw [h]; exact ⟨by simp, trivial, by simp, fun _ => hc⟩
    · have hs := slept_ge he i (d := delay)
      have hd := he.dur i
      have hge : (if t.first then now else now + t.interval) ≤ now + slept e i delay := by
        split
        · rename_i hf; rw [if_pos hf] at e2; omega
        · rename_i hf; rw [if_neg hf] at e2; omega
      have hnow : now ≤ now + slept e i delay := by split at e2 <;> omega
      generalize now + slept e i delay = u at *
      rcases h' with ⟨hl, h⟩ | ⟨hl, h⟩ | ⟨hl, h⟩
      · rw [h]
        refine ⟨fun x hx => ?_, trivial, (by show now ≤ u + e.dur i; omega), fun h => (by cases h)⟩
        rw [List.mem_singleton] at hx; subst hx
        exact ⟨hge, by show _ ≤ _ + e.dur i; omega⟩
      · rw [h]
        refine ⟨fun x hx => ?_, trivial, (by show now ≤ u + e.dur i; omega), fun h => (by cases h)⟩
        rw [List.mem_singleton] at hx; subst hx
        exact ⟨hge, by show _ ≤ _ + e.dur i; omega⟩
      · have ih := loop_times he fuel (i + 1) t' (u + e.dur i) (by rw [e1]; exact ht)
        rw [h]
        generalize loop e fuel (i + 1) t' (u + e.dur i) = r at *
        subst e1
        obtain ⟨h1, h2, h3, h4⟩ := ih
        simp only [Bool.false_eq_true, if_false] at h1
        unfold Result.before
        dsimp only at *
        refine ⟨fun x hx => ?_, Apart.cons h2 (fun x hx => by have := (h1 x hx).1; omega), by omega, h4⟩
        rcases List.mem_cons.1 hx with rfl | hx
        · exact ⟨hge, by omega⟩
        · have := h1 x hx; exact ⟨by omega, this.2⟩

/-- How long it takes. -/
theorem loop_ends {e : Env} {d x : Int} (hw : Within e d x) (hd : 0 ≤ d) (hx : 0 ≤ x) : ∀ (fuel i : Nat) (t : T) (now : Int), 0 < t.interval →
    now ≤ t.cutoff + t.interval + x + d → (loop e fuel i t now).endsAt ≤ t.cutoff + t.interval + x + d
  | 0, i, t, now, _, hn => hn
  | fuel + 1, i, t, now, ht, hn => by
    rcases loop_cases e fuel i t now with ⟨hc, h⟩ | ⟨hlt, delay, t', _, e1, e2, h'⟩
    · rw [h]; exact hn
    · have hdel : 0 ≤ delay ∧ delay ≤ t.interval := by split at e2 <;> omega
      have hs := slept_le hw hx i hdel.1
      have hdu := hw.dur i
      have hu : now + slept e i delay + e.dur i ≤ t.cutoff + t.interval + x + d := by omega
      rcases h' with ⟨hl, h⟩ | ⟨hl, h⟩ | ⟨hl, h⟩
      · rw [h]; exact hu
      · rw [h]; exact hu
      · have ih := loop_ends hw hd hx fuel (i + 1) t' (now + slept e i delay + e.dur i) (by rw [e1]; exact ht) (by rw [e1]; exact hu)
        rw [h]
        rw [e1] at ih ⊢
        exact ih

/-- The number of rounds. -/
theorem loop_rounds {e : Env} (he : Forward e) : ∀ (k fuel i : Nat) (t : T) (now : Int), 0 < t.interval → t.first = false →
    t.cutoff - now ≤ k * t.interval → k < fuel →
    (loop e fuel i t now).poll ≠ none ∧ (loop e fuel i t now).looks.length ≤ k ∧ loop e fuel i t now = loop e (k + 1) i t now
  | k, 0, i, t, now, _, _, _, hk => absurd hk (by omega)
  | k, fuel + 1, i, t, now, ht, hf, hc, hk => by
    rcases loop_cases e fuel i t now with ⟨hcut, h⟩ | ⟨hlt, delay, t', htk, e1, e2, h'⟩
    · rcases loop_cases e k i t now with ⟨_, h0⟩ | ⟨hlt, _⟩
      · rw [h, h0]; exact ⟨by simp, by simp, rfl⟩
      · omega
    · rcases loop_cases e k i t now with ⟨hc0, _⟩ | ⟨_, delay0, t0, htk0, _, _, h0'⟩
      · omega
      rw [htk] at htk0
      simp only [Option.some.injEq, Prod.mk.injEq] at htk0
      obtain ⟨rfl, rfl⟩ := htk0
      rw [hf] at e2
      simp only [Bool.false_eq_true, if_false] at e2
      have hs := slept_ge he i (d := delay)
      have hdu := he.dur i
      cases k with
      | zero =>
        have : ((0 : Nat) : Int) * t.interval = 0 := Int.zero_mul _
        omega
      | succ k =>
        have hstep : t'.cutoff - (now + slept e i delay + e.dur i) ≤ k * t'.interval := by
          rw [e1]
          have hk : ((k + 1 : Nat) : Int) * t.interval = k * t.interval + t.interval := by
            rw [Int.natCast_succ, Int.add_mul, Int.one_mul]
          show t.cutoff - (now + slept e i delay + e.dur i) ≤ k * t.interval
          omega
        rcases h' with ⟨hl, h⟩ | ⟨hl, h⟩ | ⟨hl, h⟩
        · rcases h0' with ⟨_, h0⟩ | ⟨hl0, _⟩ | ⟨hl0, _⟩
          · rw [h, h0]; exact ⟨by simp, by simp, rfl⟩
          · rw [hl] at hl0; cases hl0
          · rw [hl] at hl0; cases hl0
        · rcases h0' with ⟨hl0, _⟩ | ⟨_, h0⟩ | ⟨hl0, _⟩
          · rw [hl] at hl0; cases hl0
          · rw [h, h0]; exact ⟨by simp, by simp, rfl⟩
          · rw [hl] at hl0; cases hl0
        · rcases h0' with ⟨hl0, _⟩ | ⟨hl0, _⟩ | ⟨_, h0⟩
          · rw [hl] at hl0; cases hl0
          · rw [hl] at hl0; cases hl0
          have ih := loop_rounds he k fuel (i + 1) t' (now + slept e i delay + e.dur i) (by rw [e1]; exact ht) (by rw [e1]) hstep (by omega)
          rw [h, h0, ← ih.2.2]
          refine ⟨ih.1, ?_, rfl⟩
          show (_ :: _).length ≤ _
          simp only [List.length_cons]
          have := ih.2.1
          omega

/-- A snapshot that appears in time is seen. -/
theorem loop_seen {e : Env} {d x at_ : Int} (hw : Within e d x) (hx : 0 ≤ x) (hd : 0 ≤ d)
    (hfound : ∀ i y, at_ ≤ y → e.look i y = .found) (hok : ∀ i y, e.look i y ≠ .fails) : ∀ (fuel i : Nat) (t : T) (now : Int), 0 < t.interval →
    at_ + d ≤ t.cutoff → now < t.cutoff →
    (loop e fuel i t now).poll = none ∨ (loop e fuel i t now).poll = some .seen ∧
      (loop e fuel i t now).endsAt ≤ max now (at_ + d) + t.interval + x + d
  | 0, _, _, _, _, _, _ => .inl rfl
  | fuel + 1, i, t, now, ht, hcut, hnow => by
    rcases loop_cases e fuel i t now with ⟨hc, _⟩ | ⟨_, delay, t', _, e1, e2, h'⟩
    · omega
    · have hdel : 0 ≤ delay ∧ delay ≤ t.interval := by split at e2 <;> omega
      have hs := slept_le hw hx i hdel.1
      have hdu := hw.dur i
      have hm := le_max_left now (at_ + d)
      rcases h' with ⟨hl, h⟩ | ⟨hl, h⟩ | ⟨hl, h⟩
      · rw [h]; right; refine ⟨rfl, ?_⟩
        show now + slept e i delay + e.dur i ≤ _
        omega
      · exact absurd hl (hok _ _)
      · have hlt : now + slept e i delay < at_ := by
          refine Classical.byContradiction fun hge => ?_
          rw [hfound i _ (by omega)] at hl
          cases hl
        have ih := loop_seen hw hx hd hfound hok fuel (i + 1) t' (now + slept e i delay + e.dur i) (by rw [e1]; exact ht)
          (by rw [e1]; exact hcut) (by rw [e1]; show _ < t.cutoff; omega)
        rw [h]
        rcases ih with ih | ⟨ih1, ih2⟩
        · left; exact ih
        · right
          refine ⟨ih1, ?_⟩
          show (loop e fuel (i + 1) t' _).endsAt ≤ _
          rw [e1] at ih2 ⊢
          dsimp only at ih2
          have : max (now + slept e i delay + e.dur i) (at_ + d) = at_ + d := max_eq_right (by omega)
          rw [this] at ih2
          have := le_max_right now (at_ + d)
          omega

/-! ## C96 -/

/-- **C96** Waiting for a snapshot always comes to an end, after at most 46 listings. -/
theorem C96_ends (e : Env) (he : Forward e) (now : Int) (fuel : Nat) (hf : 47 ≤ fuel) :
    (waitSnapshot e fuel now).poll ≠ none ∧ (waitSnapshot e fuel now).looks.length ≤ 46 ∧
    waitSnapshot e fuel now = waitSnapshot e 47 now := by
  have key : ∀ k, 46 ≤ k → (waitSnapshot e (k + 1) now).poll ≠ none ∧ (waitSnapshot e (k + 1) now).looks.length ≤ 46 ∧
      waitSnapshot e (k + 1) now = waitSnapshot e 47 now := by
    intro k hk
    unfold waitSnapshot
    rcases loop_cases e k 0 (T.new now snapshotTimeout pollInterval) now with ⟨h, _⟩ | ⟨_, delay, t', htk, e1, e2, h'⟩
    · exact absurd h (by show ¬ now + 90 * 1000000 ≤ now; omega)
    rcases loop_cases e 46 0 (T.new now snapshotTimeout pollInterval) now with ⟨h, _⟩ | ⟨_, delay0, t0, htk0, _, _, h0'⟩
    · exact absurd h (by show ¬ now + 90 * 1000000 ≤ now; omega)
    rw [htk] at htk0
    simp only [Option.some.injEq, Prod.mk.injEq] at htk0
    obtain ⟨rfl, rfl⟩ := htk0
    have e2 : delay = 0 := e2
    have hs : slept e 0 delay = 0 := by unfold slept; rw [if_pos e2]
    rw [hs] at h' h0'
    have hd := he.dur 0
    rcases h' with ⟨hl, h⟩ | ⟨hl, h⟩ | ⟨hl, h⟩
    · rcases h0' with ⟨_, h0⟩ | ⟨hl0, _⟩ | ⟨hl0, _⟩
      · rw [h, h0]; exact ⟨by simp, by simp, rfl⟩
      · rw [hl] at hl0; cases hl0
      · rw [hl] at hl0; cases hl0
    · rcases h0' with ⟨hl0, _⟩ | ⟨_, h0⟩ | ⟨hl0, _⟩
      · rw [hl] at hl0; cases hl0
      · rw [h, h0]; exact ⟨by simp, by simp, rfl⟩
      · rw [hl] at hl0; cases hl0
    · rcases h0' with ⟨hl0, _⟩ | ⟨hl0, _⟩ | ⟨_, h0⟩
      · rw [hl] at hl0; cases hl0
      · rw [hl] at hl0; cases hl0
      have hc : t'.cutoff - (now + 0 + e.dur 0) ≤ (45 : Nat) * t'.interval := by
        rw [e1]; show now + 90 * 1000000 - (now + 0 + e.dur 0) ≤ (45 : Nat) * (2 * 1000000); omega
      obtain ⟨r1, r2, r3⟩ := loop_rounds he 45 k 1 t' (now + 0 + e.dur 0) (by rw [e1]; exact (by decide : (0 : Int) < 2 * 1000000)) (by rw [e1]) hc (by omega)
      obtain ⟨_, _, r4⟩ := loop_rounds he 45 46 1 t' (now + 0 + e.dur 0) (by rw [e1]; exact (by decide : (0 : Int) < 2 * 1000000)) (by rw [e1]) hc (by omega)
      rw [h, h0, Nat.zero_add, r4, ← r3]
      refine ⟨r1, ?_, rfl⟩
      show (_ :: (loop e k 1 t' (now + 0 + e.dur 0)).looks).length ≤ _
      simp only [List.length_cons]
      omega
  obtain ⟨k, rfl⟩ : ∃ k, fuel = k + 1 := ⟨fuel - 1, by omega⟩
  exact key k (by omega)

/-- **C96** The first listing starts at once, and further ones at least two seconds apart, as long as the snapshot is not seen. -/
theorem C96_listings (e : Env) (he : Forward e) (now : Int) :
    (waitSnapshot e 47 now).looks.head? = some now ∧ Apart 2000000 (waitSnapshot e 47 now).looks := by
  refine ⟨?_, (loop_times he 47 0 (T.new now snapshotTimeout pollInterval) now (by exact (by decide : (0 : Int) < 2 * 1000000))).2.1⟩
  unfold waitSnapshot
  rcases loop_cases e 46 0 (T.new now snapshotTimeout pollInterval) now with ⟨h, _⟩ | ⟨_, delay, t', htk, e1, e2, h'⟩
  · exact absurd h (by show ¬ now + 90 * 1000000 ≤ now; omega)
  have e2 : delay = 0 := e2
  have hs : now + slept e 0 delay = now := by unfold slept; rw [if_pos e2]; omega
  rw [hs] at h'
  rcases h' with ⟨hl, h⟩ | ⟨hl, h⟩ | ⟨hl, h⟩ <;> rw [h] <;> rfl

/-- **C96** The backup takes the snapshot itself only if it has waited for at least 90 seconds and no listing has shown the snapshot; it goes on
with the requested snapshot only if a listing has shown it; it fails only if a listing has failed. -/
theorem C96_outcome (e : Env) (he : Forward e) (now : Int) :
    let r := waitSnapshot e 47 now
    (r.poll = some .timeout → now + 90000000 ≤ r.endsAt ∧ ∀ j x, r.looks[j]? = some x → e.look j x = .notFound) ∧
    (r.poll = some .seen → ∃ j x, r.looks[j]? = some x ∧ e.look j x = .found) ∧
    (r.poll = some .lsFails → ∃ j x, r.looks[j]? = some x ∧ e.look j x = .fails) := by
  dsimp only
  obtain ⟨h1, h2, h3, _⟩ := loop_looks e 47 0 (T.new now snapshotTimeout pollInterval) now
  have ht := (loop_times he 47 0 (T.new now snapshotTimeout pollInterval) now (by exact (by decide : (0 : Int) < 2 * 1000000))).2.2.2
  simp only [Nat.zero_add] at h1 h2 h3
  exact ⟨fun h => ⟨ht h, h1 h⟩, h2, h3⟩

/-- **C96** If every listing takes at most `d` and sleeping at most `x` longer than asked for, it takes at most 92 seconds, `d` and `x`. -/
theorem C96_bounded (e : Env) (d x : Int) (hw : Within e d x) (hd : 0 ≤ d) (hx : 0 ≤ x) (now : Int) :
    (waitSnapshot e 47 now).endsAt ≤ now + 92000000 + x + d := by
  have := loop_ends hw hd hx 47 0 (T.new now snapshotTimeout pollInterval) now (by exact (by decide : (0 : Int) < 2 * 1000000))
    (by show now ≤ now + 90 * 1000000 + 2 * 1000000 + x + d; omega)
  have h2 : (T.new now snapshotTimeout pollInterval).cutoff + (T.new now snapshotTimeout pollInterval).interval + x + d =
      now + 92000000 + x + d := by show now + 90 * 1000000 + 2 * 1000000 + x + d = _; omega
  rw [h2] at this
  exact this

/-- **C96** A snapshot that appears `d` before the 90 seconds are over or earlier is seen, at most two seconds, `x` and twice `d` after it
has appeared. -/
theorem C96_seen (e : Env) (he : Forward e) (d x : Int) (hw : Within e d x) (hd : 0 ≤ d) (hx : 0 ≤ x) (now at_ : Int) (hat : now ≤ at_)
    (hin : at_ + d ≤ now + 90000000) (hfound : ∀ i y, at_ ≤ y → e.look i y = .found) (hok : ∀ i y, e.look i y ≠ .fails) :
    (waitSnapshot e 47 now).poll = some .seen ∧ (waitSnapshot e 47 now).endsAt ≤ at_ + 2000000 + x + 2 * d := by
  have h := loop_seen hw hx hd hfound hok 47 0 (T.new now snapshotTimeout pollInterval) now (by exact (by decide : (0 : Int) < 2 * 1000000)) hin
    (by show now < now + 90 * 1000000; omega)
  have hm : max now (at_ + d) = at_ + d := max_eq_right (by omega)
  rw [hm] at h
  rcases h with h | ⟨h1, h2⟩
  · exact absurd h (C96_ends e he now 47 (by omega)).1
  · refine ⟨h1, ?_⟩
    have h2 : (waitSnapshot e 47 now).endsAt ≤ at_ + d + 2 * 1000000 + x + d := h2
    omega

/-- A snapshot that appears after 5 seconds, with listings of half a second. -/
def exEnv : Env := ⟨fun _ => 1000, fun _ => 500000, fun _ y => if 5000000 ≤ y then .found else .notFound⟩

theorem exEnv_facts : Forward exEnv ∧ Within exEnv 500000 1000 ∧ (∀ i y, 5000000 ≤ y → exEnv.look i y = .found) ∧ (∀ i y, exEnv.look i y ≠ .fails) ∧
    waitSnapshot exEnv 47 0 = ⟨some .seen, [0, 2501000, 5002000], 5502000⟩ ∧
    (waitSnapshot { exEnv with look := fun _ _ => .notFound } 47 0).poll = some .timeout := by
  refine ⟨⟨fun _ => (by decide : (0 : Int) ≤ 1000), fun _ => (by decide : (0 : Int) ≤ 500000)⟩, ⟨fun _ => Int.le_refl _, fun _ => Int.le_refl _⟩, fun i y h => if_pos h, fun i y => ?_, by decide +kernel,
    by decide +kernel⟩
  show (if 5000000 ≤ y then Look.found else Look.notFound) ≠ .fails
  split <;> decide

/-- C96_ends, C96_listings, C96_outcome, C96_bounded, C96_seen for this volume. -/
example := C96_ends exEnv exEnv_facts.1 0 47 (Nat.le_refl _)
example := C96_listings exEnv exEnv_facts.1 0
example := C96_outcome exEnv exEnv_facts.1 0
example := C96_bounded exEnv 500000 1000 exEnv_facts.2.1 (by decide) (by decide) 0
example := C96_seen exEnv exEnv_facts.1 500000 1000 exEnv_facts.2.1 (by decide) (by decide) 0 5000000 (by decide) (by decide)
  exEnv_facts.2.2.1 exEnv_facts.2.2.2.1

end Verif.TimeOut
