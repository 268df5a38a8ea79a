import Verif.Model.Cli
import Verif.Props.Schedule
/-!
# C57: exit codes for monitoring
-/
namespace Verif.Cli
open Verif Verif.Repo

/-- The SLA is violated: there is a complete revision, and all of them are older than one and a half times every interval of the
schedule that is the shortest one. -/
def Violated (c : Checked) (now : Int) : Prop :=
  (∃ r ∈ c.repo.history, r.stats.has "duration" = true) ∧
  ∀ r ∈ c.repo.history, r.stats.has "duration" = true →
    ∃ e ∈ c.sch, (∀ e' ∈ c.sch, e.2.interval ≤ e'.2.interval) ∧ 2 * (now - r.ts) > 3 * e.2.interval

/-- The code for one repository. -/
def IsCode (c : Checked) (now : Int) (n : Int) : Prop :=
  (n = 2 ∧ Violated c now) ∨ (n = 1 ∧ ¬ Violated c now ∧ c.reports ≠ []) ∨ (n = 0 ∧ ¬ Violated c now ∧ c.reports = [])

theorem exists_shortest : ∀ (sch : Schedule), sch ≠ [] → ∃ e ∈ sch, ∀ e' ∈ sch, e.2.interval ≤ e'.2.interval
  | [], h => absurd rfl h
  | [e], _ => ⟨e, by simp, by simp⟩
  | e :: e1 :: rest, _ => by
    obtain ⟨m, hm, hmin⟩ := exists_shortest (e1 :: rest) (by simp)
    by_cases h : e.2.interval ≤ m.2.interval
    · refine ⟨e, by simp, ?_⟩
      intro x hx
      rcases List.mem_cons.1 hx with rfl | hx
      · exact Int.le_refl _
      · have := hmin x hx; omega
    · refine ⟨m, by simp [hm], ?_⟩
      intro x hx
      rcases List.mem_cons.1 hx with rfl | hx
      · omega
      · exact hmin x hx

/-- **C57** For a connected repository whose schedule is not empty, `backy check` gives 2 if the SLA is violated, otherwise 1 if there are
problem reports, otherwise 0. -/
theorem C57_check (c : Checked) (now : Int) (hsorted : c.repo.history.Pairwise (fun a b => a.ts ≤ b.ts))
    (hne : c.sch ≠ []) (hpos : ∀ e ∈ c.sch, 0 ≤ e.2.interval) : ∃ n : Nat, check now c = .ok n ∧ IsCode c now n := by
  obtain ⟨e, he, hmin⟩ := exists_shortest c.sch hne
  obtain ⟨v, hv, hiff, _⟩ := C30_sla_exact c.repo c.sch now e.2.interval hsorted (List.mem_map.2 ⟨e, he, rfl⟩) hmin (hpos e he)
  have hvio : v ≠ 0 ↔ Violated c now := by
    rw [hiff]
    apply and_congr_right
    intro _
    constructor
    · intro h r hr hc; exact ⟨e, he, hmin, h r hr hc⟩
    · intro h r hr hc
      obtain ⟨e', he', hmin', h'⟩ := h r hr hc
      have := hmin' e he
      have := hmin e' he'
      omega
  refine ⟨_, by unfold check; rw [hv], ?_⟩
  unfold IsCode
  by_cases h0 : v ≠ 0
  · left
    refine ⟨?_, hvio.1 h0⟩
    rw [if_pos h0]; split <;> rfl
  · have hn : ¬ Violated c now := fun h => h0 (hvio.2 h)
    rw [if_neg h0]
    by_cases hr : c.reports = []
    · right; right; exact ⟨by rw [if_neg (by simpa using hr)]; rfl, hn, hr⟩
    · right; left; exact ⟨by rw [if_pos hr]; rfl, hn, hr⟩

theorem callLoop_ok {α σ : Type} (f : α → σ → Except PyErr Ret × σ) (code : α → Int)
    : ∀ (l : List α) (ret : Int) (s : σ), (∀ a ∈ l, ∀ s, ∃ r s', f a s = (.ok r, s') ∧ r.code = code a) →
    ∃ n s', callLoop f l ret s = (.ok n, s') ∧ ret ≤ n ∧ (∀ a ∈ l, code a ≤ n) ∧ (n = ret ∨ ∃ a ∈ l, n = code a)
  | [], ret, s, _ => ⟨ret, s, rfl, Int.le_refl _, by simp, .inl rfl⟩
  | a :: rest, ret, s, h => by
    obtain ⟨r, s', hf, hr⟩ := h a (by simp) s
    obtain ⟨n, s'', h1, h2, h3, h4⟩ := callLoop_ok f code rest (max ret r.code) s' (fun x hx => h x (by simp [hx]))
    refine ⟨n, s'', by rw [callLoop, hf]; exact h1, by omega, ?_, ?_⟩
    · intro x hx
      rcases List.mem_cons.1 hx with rfl | hx
      · omega
      · exact h3 x hx
    · rcases h4 with h4 | ⟨x, hx, h4⟩
      · by_cases hm : ret ≤ r.code
        · exact .inr ⟨a, by simp, by omega⟩
        · exact .inl (by omega)
      · exact .inr ⟨x, by simp [hx], h4⟩

/-- **C57** On several repositories, the exit code is the worst of the codes of the repositories. -/
theorem C57_worst (now : Checked → Int) (l : List Checked) (code : Checked → Int)
    (h : ∀ c ∈ l, ∃ n : Nat, check (now c) c = .ok n ∧ (n : Int) = code c) :
    0 ≤ mainCheck now (.ok l) ∧ (∀ c ∈ l, code c ≤ mainCheck now (.ok l)) ∧
    (mainCheck now (.ok l) = 0 ∨ ∃ c ∈ l, mainCheck now (.ok l) = code c) := by
  have := callLoop_ok (checkCommand now) code l 0 () (by
      intro c hc s
      obtain ⟨n, hn, hcode⟩ := h c hc
      exact ⟨.int n, s, by simp only [checkCommand, hn], hcode⟩)
  obtain ⟨n, s', h1, h2, h3, h4⟩ := this
  have hm : mainCheck now (.ok l) = n := by
    unfold mainCheck call
    dsimp only
    rw [h1]
  rw [hm]
  exact ⟨h2, h3, h4⟩

/-- **C57** An unexpected error, in whichever repository or in finding them, gives 1. -/
theorem C57_error (now : Checked → Int) :
    (∀ e, mainCheck now (.error e) = 1) ∧
    ∀ l, (∃ c ∈ l, ∃ e, check (now c) c = .error e) → mainCheck now (.ok l) = 1 := by
  refine ⟨fun _ => rfl, ?_⟩
  intro l h
  have key : ∀ (l : List Checked) (ret : Int), (∃ c ∈ l, ∃ e, check (now c) c = .error e) →
      ∃ e s', callLoop (checkCommand now) l ret () = (.error e, s') := by
    intro l
    induction l with
    | nil => rintro ret ⟨c, hc, _⟩; cases hc
    | cons a rest ih =>
      intro ret h
      simp only [callLoop, checkCommand]
      cases hca : check (now a) a with
      | error e => exact ⟨e, (), rfl⟩
      | ok n =>
        dsimp only
        apply ih
        obtain ⟨c, hc, e, he⟩ := h
        rcases List.mem_cons.1 hc with rfl | hc
        · rw [hca] at he; cases he
        · exact ⟨c, hc, e, he⟩
  obtain ⟨e, s', he⟩ := key l 0 h
  unfold mainCheck call
  dsimp only
  rw [he]

/-- The hypotheses are met, with the codes 0, 1 and 2. -/
example : mainCheck (fun _ => seconds (11 * DAY)) (.ok [⟨exRepo, exSchedule, []⟩, ⟨exRepo, exSchedule, ["r"]⟩]) = 1 ∧
    mainCheck (fun _ => seconds (12 * DAY)) (.ok [⟨exRepo, exSchedule, []⟩, ⟨exRepo, exSchedule, ["r"]⟩]) = 2 ∧
    mainCheck (fun _ => seconds (11 * DAY)) (.ok [⟨exRepo, exSchedule, []⟩]) = 0 ∧
    mainCheck (fun _ => seconds (12 * DAY)) (.ok [⟨exRepo, exSchedule, []⟩, ⟨exRepo, [], []⟩]) = 1 := by
  decide +kernel
example : exRepo.history.Pairwise (fun a b => a.ts ≤ b.ts) ∧ exSchedule ≠ [] ∧ ∀ e ∈ exSchedule, 0 ≤ e.2.interval := by
  decide +kernel

/-- C57_check, C57_worst, C57_error -/
example := C57_check ⟨exRepo, exSchedule, ["r"]⟩ (seconds (12 * DAY)) (by decide +kernel) (by decide +kernel) (by decide +kernel)
example := C57_worst (fun _ => seconds (12 * DAY)) [⟨exRepo, exSchedule, []⟩, ⟨exRepo, exSchedule, ["r"]⟩] (fun _ => 2)
  (by intro c hc
      simp only [List.mem_cons, List.not_mem_nil, or_false] at hc
      rcases hc with rfl | rfl <;> exact ⟨2, by decide +kernel, rfl⟩)
example := (C57_error (fun _ => seconds (12 * DAY))).2 [⟨exRepo, exSchedule, []⟩, ⟨exRepo, [], []⟩]
  ⟨⟨exRepo, [], []⟩, by simp, .value, by decide +kernel⟩

end Verif.Cli
