import Verif.Spec.RbdCmd
import Verif.Props.Outcome
/-!
# C101: what a backup does to Ceph
-/
namespace Verif.RbdCmd
open Verif Verif.Repo Verif.Backup

/-! ## Executions of composed programs -/

abbrev Trace := List (List String × Ans)

theorem Runs.done_inv {α : Type} {r r' : Except PyErr α} {t : Trace} (h : Runs (.done r) t r') : t = [] ∧ r' = r := by
  cases h; exact ⟨rfl, rfl⟩

theorem Runs.bind_inv {α β : Type} {p : Prog α} {f : α → Prog β} : ∀ {t : Trace} {r : Except PyErr β}, Runs (p.bind f) t r →
    (∃ e, Runs p t (.error e) ∧ r = .error e) ∨ ∃ a t1 t2, t = t1 ++ t2 ∧ Runs p t1 (.ok a) ∧ Runs (f a) t2 r := by
  induction p with
  | done x =>
    intro t r h
    cases x with
    | error e => rw [Prog.bind] at h; obtain ⟨rfl, rfl⟩ := h.done_inv; exact .inl ⟨e, .done _, rfl⟩
    | ok a => rw [Prog.bind] at h; exact .inr ⟨a, [], t, rfl, .done _, h⟩
  | rbd argv k ih =>
    intro t r h
    rw [Prog.bind] at h
    cases h with
    | rbd _ _ a t _ h =>
      rcases ih a h with ⟨e, h1, h2⟩ | ⟨x, t1, t2, rfl, h1, h2⟩
      · exact .inl ⟨e, .rbd _ _ _ _ _ h1, h2⟩
      · exact .inr ⟨x, _ :: t1, t2, rfl, .rbd _ _ _ _ _ h1, h2⟩
  | other k ih =>
    intro t r h
    rw [Prog.bind] at h
    cases h with
    | other _ o t _ h =>
      rcases ih o h with ⟨e, h1, h2⟩ | ⟨x, t1, t2, rfl, h1, h2⟩
      · exact .inl ⟨e, .other _ _ _ _ h1, h2⟩
      · exact .inr ⟨x, t1, t2, rfl, .other _ _ _ _ h1, h2⟩

theorem Runs.attempt_inv {α : Type} {p : Prog α} : ∀ {t : Trace} {r : Except PyErr (Except PyErr α)}, Runs p.attempt t r →
    ∃ r', r = .ok r' ∧ Runs p t r' := by
  induction p with
  | done x => intro t r h; rw [Prog.attempt] at h; obtain ⟨rfl, rfl⟩ := h.done_inv; exact ⟨x, rfl, .done _⟩
  | rbd argv k ih =>
    intro t r h
    rw [Prog.attempt] at h
    cases h with
    | rbd _ _ a t _ h => obtain ⟨r', h1, h2⟩ := ih a h; exact ⟨r', h1, .rbd _ _ _ _ _ h2⟩
  | other k ih =>
    intro t r h
    rw [Prog.attempt] at h
    cases h with
    | other _ o t _ h => obtain ⟨r', h1, h2⟩ := ih o h; exact ⟨r', h1, .other _ _ _ _ h2⟩

theorem Runs.work_inv {t : Trace} {r : Except PyErr Bool} (h : Runs work t r) : t = [] := by
  cases h with
  | other _ o t _ h => exact h.done_inv.1

theorem Runs.finally_inv {α : Type} {p : Prog α} {q : Prog Unit} {t : Trace} {r : Except PyErr α} (h : Runs (p.finally_ q) t r) :
    ∃ r1 t1 t2 r2, t = t1 ++ t2 ∧ Runs p t1 r1 ∧ Runs q t2 r2 := by
  replace h := h.bind_inv; rcases h with ⟨e, h1, _⟩ | ⟨a, t1, t2, rfl, h1, h2⟩
  · obtain ⟨_, h, _⟩ := h1.attempt_inv; cases h
  · obtain ⟨r', _, h1⟩ := h1.attempt_inv
    replace h2 := h2.bind_inv; rcases h2 with ⟨e, h2, _⟩ | ⟨_, t3, t4, rfl, h2, h3⟩
    · exact ⟨r', t1, t2, _, rfl, h1, h2⟩
    · obtain ⟨rfl, _⟩ := h3.done_inv
      rw [List.append_nil]
      exact ⟨r', t1, t3, _, rfl, h1, h2⟩

theorem Runs.run_inv {cmd : List String} {json : Bool} {t : Trace} {r : Except PyErr Ans} (h : Runs (run cmd json) t r) :
    ∃ a, t = [(cmdline cmd json, a)] ∧ (∀ x, r = .ok x → x = a ∧ a.code = 0) := by
  cases h with
  | rbd _ _ a t _ h =>
    simp only [checked] at h
    cases hf : failure json a with
    | some e =>
      rw [hf] at h
      obtain ⟨rfl, rfl⟩ := h.done_inv
      exact ⟨a, rfl, fun x hx => by cases hx⟩
    | none =>
      rw [hf] at h
      obtain ⟨rfl, rfl⟩ := h.done_inv
      refine ⟨a, rfl, fun x hx => ?_⟩
      cases hx
      refine ⟨rfl, ?_⟩
      by_cases hc : a.code = 0
      · exact hc
      · rw [failure, if_pos hc] at hf; cases hf

/-! ## The commands of a backup -/

/-- The snapshot has been made: `snap create` succeeded or the snapshot was listed. -/
def Made (c : Cfg) (name : String) (pre : Trace) : Prop :=
  ∃ x ∈ pre, (x.1 = [RBD, "snap", "create", c.snapSpec name] ∧ x.2.code = 0) ∨
    (x.1 = [RBD, "snap", "ls", c.imageName, "--format=json"] ∧ some name ∈ x.2.names)

/-- No listing has shown this snapshot. -/
def Unlisted (c : Cfg) (name : String) (pre : Trace) : Prop :=
  ∀ x ∈ pre, x.1 = [RBD, "snap", "ls", c.imageName, "--format=json"] → some name ∉ x.2.names

/-- The commands a backup gives after others. -/
inductive Given (c : Cfg) (uuid : String) (keep : Option String) (pre : Trace) : List String → Prop
  | info : Given c uuid keep pre [RBD, "info", c.imageName, "--format=json"]
  | infoSnap (u : String) : Given c uuid keep pre [RBD, "info", c.snapSpec (snapName u), "--format=json"]
  | version : Given c uuid keep pre [RBD, "--version"]
  | showmapped : Given c uuid keep pre [RBD, "showmapped", "--format=json"]
  | ls : Given c uuid keep pre [RBD, "snap", "ls", c.imageName, "--format=json"]
  | create (h : Unlisted c (snapName uuid) pre) : Given c uuid keep pre [RBD, "snap", "create", c.snapSpec (snapName uuid)]
  | rm (name : String) (h : isOld keep name = true)
      (hl : ∃ x ∈ pre, x.1 = [RBD, "snap", "ls", c.imageName, "--format=json"] ∧ some name ∈ x.2.names) :
      Given c uuid keep pre [RBD, "snap", "rm", c.snapSpec name]
  | export_ (h : Made c (snapName uuid) pre) : Given c uuid keep pre [RBD, "export", c.snapSpec (snapName uuid), "-"]
  | diff (u : String) (h : Made c (snapName uuid) pre) :
      Given c uuid keep pre [RBD, "export-diff", c.snapSpec (snapName uuid), "--from-snap", snapName u, "-"]
  | diffWhole (u : String) (h : Made c (snapName uuid) pre) :
      Given c uuid keep pre [RBD, "export-diff", c.snapSpec (snapName uuid), "--from-snap", snapName u, "--whole-object", "-"]
  | map (h : Made c (snapName uuid) pre) : Given c uuid keep pre [RBD, "map", c.snapSpec (snapName uuid), "--read-only"]
  | unmap (d : String) (h : ∃ x ∈ pre, ∃ e ∈ entries x.2.shown, e.get? "device" = some d) :
      Given c uuid keep pre (cmdline ["unmap", d] false)

theorem Made.mono {c : Cfg} {name : String} {pre pre' : Trace} (h : Made c name pre) (hs : pre ⊆ pre') : Made c name pre' := by
  obtain ⟨x, hx, h⟩ := h
  exact ⟨x, hs hx, h⟩

/-- All commands of a trace, each after the earlier ones. -/
def Good (c : Cfg) (uuid : String) (keep : Option String) (pre t : Trace) : Prop :=
  ∀ t1 x t2, t = t1 ++ x :: t2 → Given c uuid keep (pre ++ t1) x.1

theorem Good.nil {c : Cfg} {uuid : String} {keep : Option String} {pre : Trace} : Good c uuid keep pre [] := by
  intro t1 x t2 h
  cases t1 <;> cases h

theorem Good.cons {c : Cfg} {uuid : String} {keep : Option String} {pre : Trace} {x : List String × Ans} {t : Trace}
    (h : Given c uuid keep pre x.1) (ht : Good c uuid keep (pre ++ [x]) t) : Good c uuid keep pre (x :: t) := by
  intro t1 y t2 e
  cases t1 with
  | nil => cases e; rw [List.append_nil]; exact h
  | cons z t1 =>
    cases e
    have := ht t1 y t2 rfl
    rwa [List.append_assoc] at this

theorem Good.one {c : Cfg} {uuid : String} {keep : Option String} {pre : Trace} {x : List String × Ans}
    (h : Given c uuid keep pre x.1) : Good c uuid keep pre [x] := Good.cons h .nil

theorem Good.append {c : Cfg} {uuid : String} {keep : Option String} {t : Trace} : ∀ {pre s : Trace},
    Good c uuid keep pre s → Good c uuid keep (pre ++ s) t → Good c uuid keep pre (s ++ t) := by
  intro pre s
  induction s generalizing pre with
  | nil => intro _ h; rw [List.append_nil] at h; exact h
  | cons x s ih =>
    intro h1 h2
    refine Good.cons (by simpa using h1 [] x s rfl) (ih (fun t1 y t2 e => ?_) (by simpa using h2))
    have := h1 (x :: t1) y t2 (by rw [e]; rfl)
    rw [List.append_assoc]
    exact this

/-! ## Each part -/

variable {c : Cfg} {uuid : String} {keep : Option String}

theorem ne_spec (hp : c.pool ≠ "") : c.imageName ≠ "" := by
  intro h
  have := congrArg String.toList h
  simp only [Cfg.imageName, String.toList_append] at this
  rcases List.append_eq_nil_iff.mp this with ⟨h1, _⟩
  rcases List.append_eq_nil_iff.mp h1 with ⟨h1, _⟩
  exact hp (String.toList_inj.mp (by rw [h1]; rfl))

theorem ne_snap (hp : c.pool ≠ "") (n : String) : c.snapSpec n ≠ "" := by
  intro h
  have := congrArg String.toList h
  simp only [Cfg.snapSpec, String.toList_append] at this
  rcases List.append_eq_nil_iff.mp this with ⟨h1, _⟩
  rcases List.append_eq_nil_iff.mp h1 with ⟨h1, _⟩
  exact ne_spec hp (String.toList_inj.mp (by rw [h1]; rfl))

theorem cmd_info {a : String} (h : a ≠ "") : cmdline ["info", a] true = [RBD, "info", a, "--format=json"] := by
  simp [cmdline, h]

theorem cmd_ls {a : String} (h : a ≠ "") : cmdline ["snap", "ls", a] true = [RBD, "snap", "ls", a, "--format=json"] := by
  simp [cmdline, h]

theorem cmd_create {a : String} (h : a ≠ "") : cmdline ["snap", "create", a] false = [RBD, "snap", "create", a] := by
  simp [cmdline, h]

theorem cmd_rm {a : String} (h : a ≠ "") : cmdline ["snap", "rm", a] false = [RBD, "snap", "rm", a] := by
  simp [cmdline, h]

theorem cmd_map {a : String} (h : a ≠ "") : cmdline ["map", a, "--read-only"] false = [RBD, "map", a, "--read-only"] := by
  simp [cmdline, h]

theorem snapCreate_inv {a : String} (ha : a ≠ "") {t : Trace} {r : Except PyErr Unit} (h : Runs (snapCreate a) t r) :
    ∃ x, t = [([RBD, "snap", "create", a], x)] ∧ (r = .ok () → x.code = 0) := by
  rw [snapCreate] at h
  replace h := h.bind_inv; rcases h with ⟨e, h, rfl⟩ | ⟨b, t1, t2, rfl, h, h2⟩
  · obtain ⟨x, rfl, _⟩ := h.run_inv
    exact ⟨x, by rw [cmd_create ha], fun h => by cases h⟩
  · obtain ⟨x, rfl, hx⟩ := h.run_inv
    obtain ⟨rfl, _⟩ := h2.done_inv
    exact ⟨x, by rw [cmd_create ha]; rfl, fun _ => (hx b rfl).2⟩

theorem snapLs_inv {a : String} (ha : a ≠ "") {t : Trace} {r : Except PyErr (List (Option String))} (h : Runs (snapLs a) t r) :
    ∃ x, t = [([RBD, "snap", "ls", a, "--format=json"], x)] ∧ ∀ l, r = .ok l → l = x.names := by
  rw [snapLs] at h
  replace h := h.bind_inv; rcases h with ⟨e, h, rfl⟩ | ⟨b, t1, t2, rfl, h, h2⟩
  · obtain ⟨x, rfl, _⟩ := h.run_inv
    exact ⟨x, by rw [cmd_ls ha], fun l h => by cases h⟩
  · obtain ⟨x, rfl, hx⟩ := h.run_inv
    obtain ⟨rfl, rfl⟩ := h2.done_inv
    refine ⟨x, by rw [cmd_ls ha]; rfl, fun l hl => ?_⟩
    cases hl
    rw [(hx b rfl).1]

theorem snapRm_inv {a : String} (ha : a ≠ "") {t : Trace} {r : Except PyErr Unit} (h : Runs (snapRm a) t r) :
    ∃ x, t = [([RBD, "snap", "rm", a], x)] := by
  rw [snapRm] at h
  replace h := h.bind_inv; rcases h with ⟨e, h, rfl⟩ | ⟨b, t1, t2, rfl, h, h2⟩
  · obtain ⟨x, rfl, _⟩ := h.run_inv
    exact ⟨x, by rw [cmd_rm ha]⟩
  · obtain ⟨x, rfl, hx⟩ := h.run_inv
    obtain ⟨rfl, _⟩ := h2.done_inv
    exact ⟨x, by rw [cmd_rm ha]; rfl⟩

theorem exists_inv {a : String} (ha : a ≠ "") {t : Trace} {r : Except PyErr Bool} (h : Runs (exists_ a) t r) :
    ∃ x, t = [([RBD, "info", a, "--format=json"], x)] ∧ r = existsAns x := by
  rw [exists_] at h
  cases h with
  | rbd _ _ x t _ h =>
    obtain ⟨rfl, rfl⟩ := h.done_inv
    exact ⟨x, by rw [cmd_info ha], rfl⟩

theorem ready_good (hp : c.pool ≠ "") {pre t : Trace} {r : Except PyErr Bool} (h : Runs (ready c) t r) : Good c uuid keep pre t := by
  rw [ready] at h
  replace h := h.bind_inv; rcases h with ⟨e, h, rfl⟩ | ⟨b, t1, t2, rfl, h, h2⟩
  · obtain ⟨_, h', _⟩ := h.attempt_inv; cases h'
  · obtain ⟨_, _, h⟩ := h.attempt_inv
    obtain ⟨x, rfl, _⟩ := exists_inv (ne_spec hp) h
    obtain ⟨rfl, _⟩ := h2.done_inv
    exact Good.one .info

theorem listed_false {name : String} : ∀ {l : List (Option String)}, listed name l = .ok false → some name ∉ l
  | [], _, h => by cases h
  | none :: _, h, _ => by rw [listed] at h; cases h
  | some n :: l, h, hm => by
    rw [listed] at h
    by_cases hn : n = name
    · rw [if_pos hn] at h; cases h
    · rw [if_neg hn] at h
      rcases List.mem_cons.mp hm with hm | hm
      · cases hm; exact hn rfl
      · exact listed_false h hm

theorem ready_unlisted (hp : c.pool ≠ "") {name : String} {t : Trace} {r : Except PyErr Bool} (h : Runs (ready c) t r) :
    Unlisted c name t := by
  rw [ready] at h
  replace h := h.bind_inv; rcases h with ⟨e, h, rfl⟩ | ⟨b, t1, t2, rfl, h, h2⟩
  · obtain ⟨_, h', _⟩ := h.attempt_inv; cases h'
  · obtain ⟨_, _, h⟩ := h.attempt_inv
    obtain ⟨x, rfl, _⟩ := exists_inv (ne_spec hp) h
    obtain ⟨rfl, _⟩ := h2.done_inv
    intro y hy he
    rw [List.append_nil, List.mem_singleton] at hy
    rw [hy] at he
    exact absurd (List.cons.inj (List.cons.inj he).2).1 (by decide)

theorem poll_good (hp : c.pool ≠ "") : ∀ (n : Nat) {pre t : Trace} {r : Except PyErr Unit}, Unlisted c (snapName uuid) pre →
    Runs (poll c (snapName uuid) n) t r → Good c uuid keep pre t ∧ (r = .ok () → Made c (snapName uuid) t) := by
  intro n
  induction n with
  | zero =>
    intro pre t r hul h
    rw [poll] at h
    obtain ⟨x, rfl, hx⟩ := snapCreate_inv (ne_snap hp _) h
    exact ⟨Good.one (.create hul), fun hr => ⟨_, .head _, .inl ⟨rfl, hx hr⟩⟩⟩
  | succ n ih =>
    intro pre t r hul h
    rw [poll] at h
    replace h := h.bind_inv; rcases h with ⟨e, h, rfl⟩ | ⟨b, t1, t2, rfl, h, h2⟩
    · obtain ⟨x, rfl, hx⟩ := snapLs_inv (ne_spec hp) h
      exact ⟨Good.one .ls, fun hr => by cases hr⟩
    · obtain ⟨x, rfl, hx⟩ := snapLs_inv (ne_spec hp) h
      replace h2 := h2.bind_inv; rcases h2 with ⟨e, h2, rfl⟩ | ⟨found, t3, t4, rfl, h2, h3⟩
      · obtain ⟨rfl, _⟩ := h2.done_inv
        exact ⟨by simpa using Good.one .ls, fun hr => by cases hr⟩
      · obtain ⟨rfl, hf⟩ := h2.done_inv
        by_cases hb : found = true
        · rw [if_pos hb] at h3
          obtain ⟨rfl, _⟩ := h3.done_inv
          refine ⟨by simpa using Good.one .ls, fun _ => ⟨_, .head _, .inr ⟨rfl, ?_⟩⟩⟩
          rw [hb] at hf
          rw [← hx b rfl]
          clear hx h h2
          induction b with
          | nil => rw [listed] at hf; cases hf
          | cons y b ih =>
            cases y with
            | none => rw [listed] at hf; cases hf
            | some m =>
              rw [listed] at hf
              by_cases hm : m = snapName uuid
              · rw [hm]; exact .head _
              · rw [if_neg hm] at hf; exact .tail _ (ih hf)
        · rw [if_neg hb] at h3
          have hul' : Unlisted c (snapName uuid) (pre ++ [([RBD, "snap", "ls", c.imageName, "--format=json"], x)]) := by
            intro y hy he
            rcases List.mem_append.mp hy with hy | hy
            · exact hul y hy he
            · rw [List.mem_singleton.mp hy]
              show some (snapName uuid) ∉ x.names
              rw [← hx b rfl]
              exact listed_false (by rw [← hf, Bool.not_eq_true] at *; rw [hb])
          obtain ⟨h4, h5⟩ := ih (pre := pre ++ [([RBD, "snap", "ls", c.imageName, "--format=json"], x)]) hul' h3
          exact ⟨Good.cons .ls h4, fun hr => (h5 hr).mono (fun y hy => .tail _ hy)⟩

theorem create_good (hp : c.pool ≠ "") {n : Nat} {pre t : Trace} {r : Except PyErr Unit} (hul : Unlisted c (snapName uuid) pre)
    (h : Runs (createSnapshot c n (snapName uuid)) t r) :
    Good c uuid keep pre t ∧ (r = .ok () → Made c (snapName uuid) t) := by
  rw [createSnapshot] at h
  by_cases hc : c.consul = false
  · rw [if_pos hc] at h
    obtain ⟨x, rfl, hx⟩ := snapCreate_inv (ne_snap hp _) h
    exact ⟨Good.one (.create hul), fun hr => ⟨_, .head _, .inl ⟨rfl, hx hr⟩⟩⟩
  · rw [if_neg hc] at h
    replace h := h.bind_inv; rcases h with ⟨e, h, rfl⟩ | ⟨b, t1, t2, rfl, h, h2⟩
    · rw [h.work_inv]; exact ⟨.nil, fun hr => by cases hr⟩
    · rw [h.work_inv, List.nil_append]
      replace h2 := h2.bind_inv; rcases h2 with ⟨e, h3, rfl⟩ | ⟨r1, t3, t4, rfl, h3, h4⟩
      · obtain ⟨_, h', _⟩ := h3.attempt_inv; cases h'
      · obtain ⟨r1', hr1, h3⟩ := h3.attempt_inv
        cases hr1
        obtain ⟨g1, g2⟩ := poll_good (keep := keep) hp n (pre := pre) hul h3
        have ht4 : t4 = [] ∧ (r = .ok () → r1 = .ok ()) := by
          replace h4 := h4.bind_inv; rcases h4 with ⟨e, h5, rfl⟩ | ⟨_, t5, t6, rfl, h5, h6⟩
          · replace h5 := h5.bind_inv; rcases h5 with ⟨e, h6, _⟩ | ⟨_, t5, t6, rfl, h6, h7⟩
            · exact ⟨h6.work_inv, fun h => by cases h⟩
            · obtain ⟨rfl, _⟩ := h7.done_inv
              rw [h6.work_inv]; exact ⟨rfl, fun h => by cases h⟩
          · obtain ⟨rfl, rfl⟩ := h6.done_inv
            replace h5 := h5.bind_inv; rcases h5 with ⟨e, h6, h7⟩ | ⟨_, t5, t6, rfl, h6, h7⟩
            · cases h7
            · obtain ⟨rfl, _⟩ := h7.done_inv
              rw [h6.work_inv]; exact ⟨rfl, fun h => h⟩
        rw [ht4.1, List.append_nil]
        exact ⟨g1, fun hr => g2 (ht4.2 hr)⟩

theorem parentLoop_good (hp : c.pool ≠ "") (repo : Repo) : ∀ (n : Nat) (rev : Rev) {pre t : Trace} {r : Except PyErr (Option Rev)},
    Runs (parentLoop c repo n rev) t r → Good c uuid keep pre t := by
  intro n
  induction n with
  | zero => intro rev pre t r h; rw [parentLoop] at h; rw [h.done_inv.1]; exact .nil
  | succ n ih =>
    intro rev pre t r h
    rw [parentLoop] at h
    cases hg : repo.getParent rev with
    | none => rw [hg] at h; rw [h.done_inv.1]; exact .nil
    | some p =>
      rw [hg] at h
      replace h := h.bind_inv; rcases h with ⟨e, h, rfl⟩ | ⟨b, t1, t2, rfl, h, h2⟩
      · obtain ⟨x, rfl, _⟩ := exists_inv (ne_snap hp _) h
        exact Good.one (.infoSnap _)
      · obtain ⟨x, rfl, _⟩ := exists_inv (ne_snap hp _) h
        refine Good.cons (.infoSnap _) ?_
        by_cases hb : b = true
        · rw [if_pos hb] at h2; rw [h2.done_inv.1]; exact .nil
        · rw [if_neg hb] at h2; exact ih p h2

theorem getParent_good (hp : c.pool ≠ "") (repo : Repo) (rev : Rev) {pre t : Trace} {r : Except PyErr (Option Rev)}
    (h : Runs (getParent c repo rev) t r) : Good c uuid keep pre t := by
  rw [getParent] at h
  split at h
  · rw [h.done_inv.1]; exact .nil
  · exact parentLoop_good hp repo _ _ h

theorem workUnit_inv {t : Trace} {r : Except PyErr Unit} (h : Runs (work.bind (fun _ => .done (.ok ()))) t r) : t = [] := by
  replace h := h.bind_inv; rcases h with ⟨e, h, _⟩ | ⟨_, t1, t2, rfl, h, h2⟩
  · exact h.work_inv
  · rw [h.work_inv, h2.done_inv.1]; rfl

theorem transfer_good {rev : Rev} {parent : Option Rev} {pre t : Trace} {r : Except PyErr Bool}
    (hm : Made c (snapName rev.uuid) pre) (h : Runs (transfer c rev parent) t r) : Good c rev.uuid keep pre t := by
  cases parent with
  | none =>
    rw [transfer, export_] at h
    cases h with
    | rbd _ _ a t _ h => rw [h.work_inv]; exact Good.one (.export_ hm)
  | some p =>
    rw [transfer, exportDiff] at h
    cases h with
    | rbd _ _ a t _ h =>
      rw [h.work_inv]
      refine Good.one ?_
      cases hw : c.whole
      · exact .diff p.uuid hm
      · exact .diffWhole p.uuid hm

theorem findEntry_mem {image : String} : ∀ {l : List Mapping.Entry} {e : Mapping.Entry}, Mapping.findEntry image l = .ok e → e ∈ l := by
  intro l
  induction l with
  | nil => intro e h; rw [Mapping.findEntry] at h; cases h
  | cons x l ih =>
    intro e h
    rw [Mapping.findEntry] at h
    split at h
    · cases h
    · split at h
      · cases h; exact .head _
      · exact .tail _ (ih h)

theorem deviceIn_mem {version image d : String} {s : Mapping.Shown} (h : deviceIn version image s = .ok d) :
    ∃ e ∈ entries s, e.get? "device" = some d := by
  rw [deviceIn] at h
  cases hp : Mapping.parse version image s with
  | error e => rw [hp] at h; cases h
  | ok e =>
    rw [hp] at h
    have hd : e.get? "device" = some d := by
      have : Mapping.deviceOf e = .ok d := h
      rw [Mapping.deviceOf] at this
      split at this
      · next hx => cases this; exact hx
      · cases this
    refine ⟨e, ?_, hd⟩
    have hpre : Mapping.parsePre image s = .ok e → e ∈ entries s := by
      intro h
      cases s with
      | object es => exact findEntry_mem h
      | list es => cases h
    rw [Mapping.parse] at hp
    split at hp
    · cases s with
      | list es => exact findEntry_mem hp
      | object es => cases es <;> cases hp
    · split at hp <;> exact hpre hp

theorem verify_good (hp : c.pool ≠ "") {rev : Rev} {pre t : Trace} {r : Except PyErr Bool}
    (hm : Made c (snapName rev.uuid) pre) (h : Runs (verify c rev) t r) : Good c rev.uuid keep pre t := by
  rw [verify, imageReader] at h
  have hmap : ∀ {t : Trace} {r : Except PyErr String}, Runs (map (c.snapSpec (snapName rev.uuid)) true) t r →
      Good c rev.uuid keep pre t ∧ ∀ d, r = .ok d → ∃ x ∈ t, ∃ e ∈ entries x.2.shown, e.get? "device" = some d := by
    intro t r h
    rw [map] at h
    replace h := h.bind_inv; rcases h with ⟨e, h, rfl⟩ | ⟨b, t1, t2, rfl, h, h2⟩
    · obtain ⟨x, rfl, _⟩ := h.run_inv
      exact ⟨Good.one .version, fun d hd => by cases hd⟩
    · obtain ⟨x, rfl, _⟩ := h.run_inv
      have hmap' : Given c rev.uuid keep (pre ++ [(cmdline ["--version"] false, x)])
          (cmdline ["map", c.snapSpec (snapName rev.uuid), "--read-only"] false) := by
        rw [cmd_map (ne_snap hp _)]
        exact .map (hm.mono (List.subset_append_left _ _))
      replace h2 := h2.bind_inv; rcases h2 with ⟨e, h, rfl⟩ | ⟨b, t1, t2, rfl, h, h3⟩
      · obtain ⟨y, rfl, _⟩ := h.run_inv
        exact ⟨Good.cons .version (Good.one hmap'), fun d hd => by cases hd⟩
      · obtain ⟨y, rfl, _⟩ := h.run_inv
        replace h3 := h3.bind_inv; rcases h3 with ⟨e, h, rfl⟩ | ⟨m, t1, t2, rfl, h, h4⟩
        · obtain ⟨z, rfl, _⟩ := h.run_inv
          exact ⟨Good.cons .version (Good.cons hmap' (Good.one .showmapped)), fun d hd => by cases hd⟩
        · obtain ⟨z, rfl, hz⟩ := h.run_inv
          obtain ⟨rfl, rfl⟩ := h4.done_inv
          refine ⟨Good.cons .version (Good.cons hmap' (Good.one .showmapped)), fun d hd => ?_⟩
          rw [(hz m rfl).1] at hd
          obtain ⟨e, h1, h2⟩ := deviceIn_mem hd
          exact ⟨_, .tail _ (.tail _ (.head _)), e, h1, h2⟩
  replace h := h.bind_inv; rcases h with ⟨e, h, rfl⟩ | ⟨d, t1, t2, rfl, h, h2⟩
  · exact (hmap h).1
  · obtain ⟨g1, g2⟩ := hmap h
    refine Good.append g1 ?_
    replace h2 := h2.bind_inv; rcases h2 with ⟨e, h, rfl⟩ | ⟨_, t3, t4, rfl, h, h3⟩
    · rw [h.work_inv]; exact .nil
    · rw [h.work_inv, List.nil_append]
      obtain ⟨_, t5, t6, _, rfl, h4, h5⟩ := h3.finally_inv
      rw [h4.work_inv, List.nil_append]
      obtain ⟨x, hx, e, he, hd⟩ := g2 d rfl
      have hg : Given c rev.uuid keep (pre ++ t1) (cmdline ["unmap", d] false) :=
        .unmap d ⟨x, List.mem_append_right _ hx, e, he, hd⟩
      rw [unmap] at h5
      replace h5 := h5.bind_inv; rcases h5 with ⟨e, h, rfl⟩ | ⟨_, t7, t8, rfl, h, h6⟩
      · obtain ⟨y, rfl, _⟩ := h.run_inv
        exact Good.one hg
      · obtain ⟨y, rfl, _⟩ := h.run_inv
        obtain ⟨rfl, _⟩ := h6.done_inv
        exact Good.one hg

theorem body_good (hp : c.pool ≠ "") {repo : Repo} {rev : Rev} {pre t : Trace} {r : Except PyErr Bool}
    (hm : Made c (snapName rev.uuid) pre) (h : Runs (body c repo rev) t r) : Good c rev.uuid keep pre t := by
  rw [body] at h
  replace h := h.bind_inv; rcases h with ⟨e, h, rfl⟩ | ⟨parent, t1, t2, rfl, h, h2⟩
  · exact getParent_good hp repo rev h
  · refine Good.append (getParent_good hp repo rev h) ?_
    have hm1 : Made c (snapName rev.uuid) (pre ++ t1) := hm.mono (List.subset_append_left _ _)
    replace h2 := h2.bind_inv; rcases h2 with ⟨e, h, rfl⟩ | ⟨_, t3, t4, rfl, h, h3⟩
    · rw [h.work_inv]; exact .nil
    · rw [h.work_inv, List.nil_append]
      have htr : ∀ {t : Trace} {r : Except PyErr Bool},
          Runs ((transfer c rev parent).finally_ (work.bind (fun _ => .done (.ok ())))) t r → Good c rev.uuid keep (pre ++ t1) t := by
        intro t r h
        obtain ⟨_, t5, t6, _, rfl, h4, h5⟩ := h.finally_inv
        rw [workUnit_inv h5, List.append_nil]
        exact transfer_good hm1 h4
      replace h3 := h3.bind_inv; rcases h3 with ⟨e, h, rfl⟩ | ⟨_, t5, t6, rfl, h, h4⟩
      · exact htr h
      · refine Good.append (htr h) ?_
        replace h4 := h4.bind_inv; rcases h4 with ⟨e, h, rfl⟩ | ⟨_, t7, t8, rfl, h, h5⟩
        · rw [h.work_inv]; exact .nil
        · rw [h.work_inv, List.nil_append]
          exact verify_good hp (hm1.mono (List.subset_append_left _ _)) h5

theorem deleteLoop_good (hp : c.pool ≠ "") : ∀ (l : List (Option String)) {pre t : Trace} {r : Except PyErr Unit},
    (∀ n, some n ∈ l → ∃ x ∈ pre, x.1 = [RBD, "snap", "ls", c.imageName, "--format=json"] ∧ some n ∈ x.2.names) →
    Runs (deleteLoop c keep l) t r → Good c uuid keep pre t := by
  intro l
  induction l with
  | nil => intro pre t r _ h; rw [deleteLoop] at h; rw [h.done_inv.1]; exact .nil
  | cons y l ih =>
    intro pre t r hl h
    cases y with
    | none => rw [deleteLoop] at h; rw [h.done_inv.1]; exact .nil
    | some n =>
      rw [deleteLoop] at h
      have hone : ∀ {t : Trace} {r : Except PyErr Unit}, Runs (deleteOne c keep n) t r → Good c uuid keep pre t := by
        intro t r h
        rw [deleteOne] at h
        by_cases ho : isOld keep n = true
        · rw [if_pos ho] at h
          replace h := h.bind_inv; rcases h with ⟨e, h, _⟩ | ⟨_, t1, t2, rfl, h, h2⟩
          · obtain ⟨_, h', _⟩ := h.attempt_inv; cases h'
          · obtain ⟨_, _, h⟩ := h.attempt_inv
            obtain ⟨x, rfl⟩ := snapRm_inv (ne_snap hp _) h
            rw [h2.done_inv.1]
            exact Good.one (.rm n ho (hl n (.head _)))
        · rw [if_neg ho] at h; rw [h.done_inv.1]; exact .nil
      replace h := h.bind_inv; rcases h with ⟨e, h, rfl⟩ | ⟨_, t1, t2, rfl, h, h2⟩
      · exact hone h
      · refine Good.append (hone h) (ih (fun m hm => ?_) h2)
        obtain ⟨x, hx, h1⟩ := hl m (.tail _ hm)
        exact ⟨x, List.mem_append_left _ hx, h1⟩

theorem deleteOld_good (hp : c.pool ≠ "") {repo : Repo} {pre t : Trace} {r : Except PyErr Unit} (h : Runs (deleteOld c repo) t r) :
    Good c uuid (keepSnapshot c.alwaysFull repo) pre t := by
  rw [deleteOld] at h
  replace h := h.bind_inv; rcases h with ⟨e, h, rfl⟩ | ⟨l, t1, t2, rfl, h, h2⟩
  · obtain ⟨x, rfl, _⟩ := snapLs_inv (ne_spec hp) h
    exact Good.one .ls
  · obtain ⟨x, rfl, hx⟩ := snapLs_inv (ne_spec hp) h
    refine Good.cons .ls (deleteLoop_good hp l (fun n hn => ⟨_, List.mem_append_right _ (.head _), rfl, ?_⟩) h2)
    rw [← hx l rfl]; exact hn

/-- Every command a backup gives. -/
theorem backup_good (hp : c.pool ≠ "") {rounds : Nat} {repo : Repo} {rev : Rev} {t : Trace} {r : Except PyErr Bool}
    (h : Runs (backup c rounds repo rev) t r) : Good c rev.uuid (keepSnapshot c.alwaysFull repo) [] t := by
  rw [backup] at h
  replace h := h.bind_inv; rcases h with ⟨e, h, rfl⟩ | ⟨ok, t1, t2, rfl, h, h2⟩
  · exact ready_good hp h
  · refine Good.append (ready_good hp h) ?_
    have hul : Unlisted c (snapName rev.uuid) ([] ++ t1) := ready_unlisted hp h
    by_cases hok : ok = true
    · rw [if_pos hok] at h2
      replace h2 := h2.bind_inv; rcases h2 with ⟨e, h, _⟩ | ⟨_, t3, t4, rfl, h, h3⟩
      · obtain ⟨_, h', _⟩ := h.attempt_inv; cases h'
      · obtain ⟨_, _, h⟩ := h.attempt_inv
        rw [h3.work_inv, List.append_nil]
        replace h := h.bind_inv; rcases h with ⟨e, h, _⟩ | ⟨_, t5, t6, rfl, h, h4⟩
        · exact (create_good hp hul h).1
        · obtain ⟨g1, g2⟩ := create_good (keep := keepSnapshot c.alwaysFull repo) hp (pre := [] ++ t1) hul h
          refine Good.append g1 ?_
          obtain ⟨_, t7, t8, _, rfl, h5, h6⟩ := h4.finally_inv
          exact Good.append (body_good hp ((g2 rfl).mono (List.subset_append_right _ _)) h5) (deleteOld_good hp h6)
    · rw [if_neg hok] at h2; rw [h2.done_inv.1]; exact .nil

/-! ## C101 -/

theorem OnlyOwn.refl (pool image uuid : String) (x : Cluster) : OnlyOwn pool image uuid x x :=
  ⟨fun _ _ _ => rfl, rfl, fun _ _ => rfl, fun _ _ h h' s b hb => by rw [h] at h'; cases h'; exact .inl hb, fun _ h => .inl h⟩

theorem startsWith_append {a b p : String} (h : startsWith a p = true) : startsWith (a ++ b) p = true := by
  rw [startsWith, List.isPrefixOf_iff_prefix] at *
  rw [String.toList_append]
  exact h.trans (List.prefix_append _ _)

/-- A text that begins with a non-empty text which is no option is no option. -/
theorem plain_append {a b : String} (ha : Name a) : Plain (a ++ b) := by
  have h1 := ha.option
  have h2 := ha.nonempty
  rw [Plain]
  rw [startsWith] at *
  rw [String.toList_append]
  cases hl : a.toList with
  | nil => exact absurd (String.toList_inj.mp (by rw [hl]; rfl)) h2
  | cons x l =>
    rw [hl] at h1
    show List.isPrefixOf ['-'] (x :: l ++ b.toList) = false
    have : List.isPrefixOf ['-'] (x :: l) = false := h1
    simpa [List.isPrefixOf] using this

theorem plain_image (hp : Name c.pool) : Plain c.imageName := by
  rw [Cfg.imageName, String.append_assoc]; exact plain_append hp

theorem plain_snap (hp : Name c.pool) (n : String) : Plain (c.snapSpec n) := by
  rw [Cfg.snapSpec, Cfg.imageName, String.append_assoc, String.append_assoc, String.append_assoc]; exact plain_append hp

theorem plain_snapName (u : String) : Plain (snapName u) := by
  rw [Plain, startsWith, snapName, String.toList_append]; rfl

theorem denotes (hp : Name c.pool) (hi : Name c.image) {n : String} (hn : Name n) : Denotes (c.snapSpec n) c.pool c.image n :=
  ⟨hp, hi, hn, rfl⟩

theorem name_own {u : String} (h1 : '/' ∉ u.toList) (h2 : '@' ∉ u.toList) : Name (snapName u) := by
  refine ⟨?_, ?_, plain_snapName u, ?_⟩
  · rw [snapName, String.toList_append]
    intro h
    rcases List.mem_append.mp h with h | h
    · revert h; decide
    · exact h1 h
  · rw [snapName, String.toList_append]
    intro h
    rcases List.mem_append.mp h with h | h
    · revert h; decide
    · exact h2 h
  · intro h
    have := congrArg String.toList h
    rw [snapName, String.toList_append] at this
    cases this

theorem onlyOwn_create {pool image u : String} (x : Cluster) :
    OnlyOwn pool image u x (x.update pool image (·.create (snapName u))) := by
  have hx : (x.update pool image (·.create (snapName u))).image pool image = (x.image pool image).map (·.create (snapName u)) :=
    if_pos ⟨rfl, rfl⟩
  refine ⟨fun p i h => if_neg (fun hc => h (by rw [hc.1, hc.2])), ?_, fun s hs => ?_, ?_, fun d hd => .inl hd⟩
  · rw [hx]; cases x.image pool image <;> rfl
  · rw [hx]
    cases x.image pool image with
    | none => rfl
    | some i =>
      have hne : s ≠ snapName u := by
        intro h
        rw [h, snapName] at hs
        rw [startsWith_append (by decide)] at hs
        cases hs
      show some (if s = snapName u then _ else i.snap s) = some (i.snap s)
      rw [if_neg hne]
  · intro y y' hy hy' s b hb
    rw [hx, hy] at hy'
    cases hy'
    by_cases hs : s = snapName u
    · subst hs
      have hb' : (match y.snap (snapName u) with | some b => some b | none => some y.content) = some b := by
        rw [← hb]; exact (if_pos rfl).symm
      cases hsn : y.snap (snapName u) with
      | none => rw [hsn] at hb'; cases hb'; exact .inr ⟨rfl, rfl, rfl⟩
      | some z => rw [hsn] at hb'; cases hb'; exact .inl rfl
    · left
      rw [← hb]
      exact (if_neg hs).symm

theorem onlyOwn_remove {pool image u name : String} (hn : startsWith name "backy-" = true) (x : Cluster) :
    OnlyOwn pool image u x (x.update pool image (·.remove name)) := by
  have hx : (x.update pool image (·.remove name)).image pool image = (x.image pool image).map (·.remove name) :=
    if_pos ⟨rfl, rfl⟩
  refine ⟨fun p i h => if_neg (fun hc => h (by rw [hc.1, hc.2])), ?_, fun s hs => ?_, ?_, fun d hd => .inl hd⟩
  · rw [hx]; cases x.image pool image <;> rfl
  · rw [hx]
    cases x.image pool image with
    | none => rfl
    | some i =>
      have hne : s ≠ name := by
        intro h
        rw [h, hn] at hs
        cases hs
      show some (if s = name then _ else i.snap s) = some (i.snap s)
      rw [if_neg hne]
  · intro y y' hy hy' s b hb
    rw [hx, hy] at hy'
    cases hy'
    left
    by_cases hs : s = name
    · have : (y.remove name).snap s = none := if_pos hs
      have hb : (y.remove name).snap s = some b := hb
      rw [this] at hb
      cases hb
    · rw [← hb]
      exact (if_neg hs).symm

/-- **C101**: whatever `rbd` answers and whatever else happens, each single command of a backup changes nothing in the cluster but
backy's own snapshots of the image: it removes one of them or creates the one of the new revision, with the content the image has
then; devices are only mapped read only, and they show that snapshot.  So other images, the image itself and snapshots of others
are left alone, also if others change the cluster in between. -/
theorem C101_only_own_snapshots (c : Cfg) (rounds : Nat) (repo : Repo) (r : Rev) (t : List (List String × Ans)) (res : Except PyErr Bool)
    (h : Runs (backup c rounds repo r) t res) (hp : Name c.pool) (hi : Name c.image) (hu1 : '/' ∉ r.uuid.toList)
    (hu2 : '@' ∉ r.uuid.toList) (hh : ∀ x ∈ t, Honest x.2) (argv : List String) (a : Ans) (hx : (argv, a) ∈ t)
    (x x' : Cluster) (he : Effect argv x x') : OnlyOwn c.pool c.image r.uuid x x' := by
  obtain ⟨t1, t2, rfl⟩ := List.append_of_mem hx
  have hg : Given c r.uuid (keepSnapshot c.alwaysFull repo) ([] ++ t1) argv := backup_good hp.nonempty h t1 _ t2 rfl
  rw [List.nil_append] at hg
  have hmem : ∀ y ∈ t1, Honest y.2 := fun y hy => hh y (List.mem_append_left _ hy)
  rcases he with rfl | he
  · exact .refl _ _ _ _
  cases hg with
  | info => exact absurd (plain_image hp) he
  | infoSnap u => exact absurd (plain_snap hp _) he
  | version => exact he.elim
  | showmapped => exact he.elim
  | ls => exact absurd (plain_image hp) he
  | create _ =>
    have := he c.pool c.image (snapName r.uuid) (denotes hp hi (name_own hu1 hu2))
    rw [this]
    exact onlyOwn_create x
  | rm name ho hl =>
    obtain ⟨y, hy, _, hn⟩ := hl
    have := he c.pool c.image name (denotes hp hi ((hmem y hy).names name hn))
    rw [this]
    rw [isOld, Bool.and_eq_true] at ho
    exact onlyOwn_remove ho.1 x
  | export_ _ => exact absurd (plain_snap hp _) he
  | diff u _ => exact absurd ⟨plain_snap hp _, plain_snapName u⟩ he
  | diffWhole u _ => exact absurd ⟨plain_snap hp _, plain_snapName u⟩ he
  | map _ =>
    have := he c.pool c.image (snapName r.uuid) (denotes hp hi (name_own hu1 hu2))
    rw [this]
    refine ⟨fun _ _ _ => rfl, rfl, fun _ _ => rfl, fun _ _ h h' s b hb => ?_, fun d hd => ?_⟩
    · have h' : x.image c.pool c.image = _ := h'
      rw [h] at h'; cases h'; exact .inl hb
    · rcases List.mem_append.mp hd with hd | hd
      · exact .inl hd
      · exact .inr (List.mem_singleton.mp hd)
  | unmap d hd =>
    obtain ⟨y, hy, e, h1, h2⟩ := hd
    have hs := (hmem y hy).devices e h1 d h2
    have hne : d ≠ "" := by
      rintro rfl
      exact absurd hs (by decide)
    have hc : cmdline ["unmap", d] false = [RBD, "unmap", d] := by simp [cmdline, hne]
    rw [hc] at he
    have hpl : Plain d := by
      rw [Plain]
      rw [startsWith] at *
      cases hl : d.toList with
      | nil => rw [hl] at hs; cases hs
      | cons z l =>
        rw [hl] at hs
        have : '/' = z := by simpa [List.isPrefixOf] using hs
        subst this
        rfl
    obtain ⟨h3, h4⟩ := (he : Plain d → _) hpl
    refine ⟨fun p i _ => by rw [h3], by rw [h3], fun _ _ => by rw [h3], fun _ _ h h' s b hb => ?_, fun d hd => .inl (h4.subset hd)⟩
    rw [h3, h] at h'; cases h'; exact .inl hb

/-- **C101**: a snapshot is only removed if it was listed before, is one of backy and does not belong to the newest local revision
(unless every backup is a full one). -/
theorem C101_removed_snapshots (c : Cfg) (rounds : Nat) (repo : Repo) (r : Rev) (t : List (List String × Ans)) (res : Except PyErr Bool)
    (h : Runs (backup c rounds repo r) t res) (hp : c.pool ≠ "") (t1 t2 : List (List String × Ans)) (a : Ans) (arg : String)
    (ht : t = t1 ++ (["rbd", "snap", "rm", arg], a) :: t2) :
    ∃ name, arg = c.pool ++ "/" ++ c.image ++ "@" ++ name ∧ startsWith name "backy-" = true ∧
      (∃ y ∈ t1, y.1 = ["rbd", "snap", "ls", c.pool ++ "/" ++ c.image, "--format=json"] ∧ some name ∈ y.2.names) ∧
      ∀ newest, c.alwaysFull = false → repo.localHistory.getLast? = some newest → '-' ∉ newest.uuid.toList →
        name ≠ "backy-" ++ newest.uuid := by
  have hg : Given c r.uuid (keepSnapshot c.alwaysFull repo) ([] ++ t1) ["rbd", "snap", "rm", arg] := backup_good hp h t1 _ t2 ht
  rw [List.nil_append] at hg
  generalize hv : ["rbd", "snap", "rm", arg] = v at hg
  cases hg with
  | rm name ho hl =>
    injection hv with _ hv
    injection hv with _ hv
    injection hv with _ hv
    injection hv with hv _
    rw [isOld, Bool.and_eq_true] at ho
    refine ⟨name, hv, ho.1, hl, ?_⟩
    rintro newest hf hn hd rfl
    have h2 := ho.2
    rw [keepSnapshot, hf, hn] at h2
    have : snapUuid ("backy-" ++ newest.uuid) = newest.uuid := snapUuid_snapName hd
    rw [this] at h2
    simp at h2
  | unmap d hd =>
    exfalso
    by_cases hne : d = "" <;> simp [cmdline, hne] at hv
  | _ => simp [RBD] at hv

/-- **C101**: data is only read from the snapshot of the new revision, and only after this snapshot has been created or has been seen
in a listing. -/
theorem C101_reads_after_snapshot (c : Cfg) (rounds : Nat) (repo : Repo) (r : Rev) (t : List (List String × Ans))
    (res : Except PyErr Bool) (h : Runs (backup c rounds repo r) t res) (hp : c.pool ≠ "") (t1 t2 : List (List String × Ans))
    (argv : List String) (a : Ans) (arg : String) (ht : t = t1 ++ (argv, a) :: t2) (hr : ReadsFrom argv arg) :
    arg = c.pool ++ "/" ++ c.image ++ "@" ++ ("backy-" ++ r.uuid) ∧
    ∃ y ∈ t1, (y.1 = ["rbd", "snap", "create", arg] ∧ y.2.code = 0) ∨
      (y.1 = ["rbd", "snap", "ls", c.pool ++ "/" ++ c.image, "--format=json"] ∧ some ("backy-" ++ r.uuid) ∈ y.2.names) := by
  have hg : Given c r.uuid (keepSnapshot c.alwaysFull repo) ([] ++ t1) argv := backup_good hp h t1 _ t2 ht
  rw [List.nil_append] at hg
  have key : ∀ (hm : Made c (snapName r.uuid) t1), arg = c.snapSpec (snapName r.uuid) →
      arg = c.pool ++ "/" ++ c.image ++ "@" ++ ("backy-" ++ r.uuid) ∧
      ∃ y ∈ t1, (y.1 = ["rbd", "snap", "create", arg] ∧ y.2.code = 0) ∨
        (y.1 = ["rbd", "snap", "ls", c.pool ++ "/" ++ c.image, "--format=json"] ∧ some ("backy-" ++ r.uuid) ∈ y.2.names) := by
    rintro ⟨y, hy, hm⟩ rfl
    exact ⟨rfl, y, hy, hm⟩
  cases hg with
  | export_ hm => rcases hr with ⟨_, hr⟩ | ⟨_, hr⟩ | ⟨_, hr⟩ <;> simp [RBD] at hr; exact key hm hr.1.symm
  | diff u hm => rcases hr with ⟨_, hr⟩ | ⟨_, hr⟩ | ⟨_, hr⟩ <;> simp [RBD] at hr; exact key hm hr.1.symm
  | diffWhole u hm => rcases hr with ⟨_, hr⟩ | ⟨_, hr⟩ | ⟨_, hr⟩ <;> simp [RBD] at hr; exact key hm hr.1.symm
  | map hm => rcases hr with ⟨_, hr⟩ | ⟨_, hr⟩ | ⟨_, hr⟩ <;> simp [RBD] at hr; exact key hm hr.1.symm
  | unmap d hd =>
    exfalso
    by_cases hne : d = "" <;> rcases hr with ⟨_, hr⟩ | ⟨_, hr⟩ | ⟨_, hr⟩ <;> simp [cmdline, hne] at hr
  | _ => rcases hr with ⟨_, hr⟩ | ⟨_, hr⟩ | ⟨_, hr⟩ <;> simp [RBD] at hr

/-- **C101** A backup creates the snapshot itself only if no listing has shown it: one that the virtual machine has made (with the
file systems frozen) is used as it is. -/
theorem C101_own_snapshot_last_resort (c : Cfg) (rounds : Nat) (repo : Repo) (r : Rev) (t : List (List String × Ans))
    (res : Except PyErr Bool) (h : Runs (backup c rounds repo r) t res) (hp : c.pool ≠ "") (t1 t2 : List (List String × Ans))
    (a : Ans) (arg : String) (ht : t = t1 ++ (["rbd", "snap", "create", arg], a) :: t2) :
    arg = c.pool ++ "/" ++ c.image ++ "@" ++ ("backy-" ++ r.uuid) ∧
    ∀ y ∈ t1, y.1 = ["rbd", "snap", "ls", c.pool ++ "/" ++ c.image, "--format=json"] → some ("backy-" ++ r.uuid) ∉ y.2.names := by
  have hg : Given c r.uuid (keepSnapshot c.alwaysFull repo) ([] ++ t1) ["rbd", "snap", "create", arg] := backup_good hp h t1 _ t2 ht
  rw [List.nil_append] at hg
  generalize hav : ["rbd", "snap", "create", arg] = argv at hg
  cases hg with
  | create hul =>
    simp only [List.cons.injEq, and_true, true_and] at hav
    exact ⟨hav.2, hul⟩
  | unmap d hd =>
    exfalso
    by_cases hne : d = "" <;> simp [cmdline, hne] at hav
  | _ => simp at hav

/-- What `rbd info` says about the image: exit code 0 and a JSON value that is not empty. -/
def SaysThere (a : Ans) : Prop := a.code = 0 ∧ a.json = true ∧ a.truth = true

/-- **C101** Every backup first asks for the image.  Unless it is there, this is the only command, and the backup fails.  If it is
there, the next command is the snapshot (no Consul). -/
theorem C101_asks_first (c : Cfg) (rounds : Nat) (repo : Repo) (r : Rev) (t : List (List String × Ans))
    (res : Except PyErr Bool) (h : Runs (backup c rounds repo r) t res) (hp : c.pool ≠ "") :
    ∃ a rest, t = (["rbd", "info", c.pool ++ "/" ++ c.image, "--format=json"], a) :: rest ∧
      (¬ SaysThere a → rest = [] ∧ res = .error .runtime) ∧
      (SaysThere a → c.consul = false → ∃ x rest',
        rest = (["rbd", "snap", "create", c.pool ++ "/" ++ c.image ++ "@" ++ ("backy-" ++ r.uuid)], x) :: rest') := by
  rw [backup] at h
  replace h := h.bind_inv; rcases h with ⟨e, h, rfl⟩ | ⟨ok, t1, t2, rfl, h, h2⟩
  · exfalso
    rw [ready] at h
    replace h := h.bind_inv; rcases h with ⟨e, h, _⟩ | ⟨b, t1, t2, _, h, h2⟩
    · obtain ⟨_, h', _⟩ := h.attempt_inv; cases h'
    · have := h2.done_inv.2; cases this
  · have hr : ∃ a, t1 = [([RBD, "info", c.imageName, "--format=json"], a)] ∧ ok = isReady (existsAns a) := by
      rw [ready] at h
      replace h := h.bind_inv; rcases h with ⟨e, h, _⟩ | ⟨b, t1, t2, rfl, h, h2⟩
      · obtain ⟨_, h', _⟩ := h.attempt_inv; cases h'
      · obtain ⟨b', hb, h⟩ := h.attempt_inv
        obtain ⟨x, rfl, rfl⟩ := exists_inv (ne_spec hp) h
        obtain ⟨rfl, h3⟩ := h2.done_inv
        cases hb
        cases h3
        exact ⟨x, rfl, rfl⟩
    obtain ⟨a, rfl, rfl⟩ := hr
    have hiff : isReady (existsAns a) = true ↔ SaysThere a := by
      unfold existsAns failure SaysThere
      by_cases h2 : a.code = 2
      · rw [if_pos h2]; simp [isReady, h2]
      · rw [if_neg h2]
        by_cases h0 : a.code = 0
        · cases hj : a.json <;> simp [h0, isReady]
        · simp [h0, isReady]
    refine ⟨a, t2, rfl, fun hn => ?_, fun hy hc => ?_⟩
    · rw [if_neg (fun h => hn (hiff.mp h))] at h2
      exact h2.done_inv
    · rw [if_pos (hiff.mpr hy)] at h2
      replace h2 := h2.bind_inv; rcases h2 with ⟨e, h, _⟩ | ⟨_, t3, t4, rfl, h, h3⟩
      · obtain ⟨_, h', _⟩ := h.attempt_inv; cases h'
      · obtain ⟨_, _, h⟩ := h.attempt_inv
        have key : ∀ {t : Trace} {r' : Except PyErr Unit}, Runs (createSnapshot c rounds (snapName r.uuid)) t r' →
            ∃ x rest', t = (["rbd", "snap", "create", c.pool ++ "/" ++ c.image ++ "@" ++ ("backy-" ++ r.uuid)], x) :: rest' := by
          intro t r' h
          rw [createSnapshot, if_pos hc] at h
          have := snapCreate_inv (ne_snap hp _) h
          obtain ⟨x, rfl, _⟩ := this
          exact ⟨x, [], rfl⟩
        replace h := h.bind_inv; rcases h with ⟨e, h, _⟩ | ⟨_, t5, t6, rfl, h, _⟩
        · obtain ⟨x, rest', rfl⟩ := key h
          exact ⟨x, rest' ++ t4, rfl⟩
        · obtain ⟨x, rest', rfl⟩ := key h
          exact ⟨x, rest' ++ t6 ++ t4, rfl⟩

/-! ## The commands do what `Model/Backup` says -/

/-- An answer without output. -/
def exit (code : Nat) : Ans := ⟨code, true, true, [], .list [], ""⟩

/-- An honest `rbd` for an image with these snapshots; `o` tells which commands fail. -/
def honestRbd (o : Rbd) (c : Cfg) (argv : List String) (snaps : Dict String Bytes) : Ans × Dict String Bytes :=
  if argv = [RBD, "snap", "ls", c.imageName, "--format=json"] then
    (if o.snapLsFails then exit 1 else { exit 0 with names := snaps.map (fun x => some x.1) }, snaps)
  else
    match snaps.find? (fun x => decide (argv = [RBD, "snap", "rm", c.snapSpec x.1])) with
    | some x => if o.snapRmFails x.1 then (exit 1, snaps) else (exit 0, snaps.filter (fun y => decide (y.1 ≠ x.1)))
    | none =>
      if o.infoFails then (exit 1, snaps)
      else if snaps.any (fun x => decide (argv = [RBD, "info", c.snapSpec x.1, "--format=json"])) then (exit 0, snaps)
      else (exit 2, snaps)

/-- Running a program with it. -/
def serve {α : Type} (o : Rbd) (c : Cfg) : Prog α → Dict String Bytes → Except PyErr α × Dict String Bytes
  | .done r, s => (r, s)
  | .rbd argv k, s => serve o c (k (honestRbd o c argv s).1) (honestRbd o c argv s).2
  | .other k, s => serve o c (k (.ok true)) s

theorem serve_bind {α β : Type} (o : Rbd) (c : Cfg) (p : Prog α) (f : α → Prog β) : ∀ s, serve o c (p.bind f) s =
    match serve o c p s with
    | (.error e, s') => (.error e, s')
    | (.ok a, s') => serve o c (f a) s' := by
  induction p with
  | done r => intro s; cases r <;> rfl
  | rbd argv k ih => intro s; exact ih _ _
  | other k ih => intro s; exact ih _ _

theorem serve_attempt {α : Type} (o : Rbd) (c : Cfg) (p : Prog α) : ∀ s, serve o c p.attempt s =
    (.ok (serve o c p s).1, (serve o c p s).2) := by
  induction p with
  | done r => intro s; rfl
  | rbd argv k ih => intro s; exact ih _ _
  | other k ih => intro s; exact ih _ _

theorem snapSpec_inj {c : Cfg} {a b : String} (h : c.snapSpec a = c.snapSpec b) : a = b := by
  have := congrArg String.toList h
  simp only [Cfg.snapSpec, String.toList_append] at this
  exact String.toList_inj.mp (List.append_cancel_left this)

theorem serve_rm (o : Rbd) (hp : c.pool ≠ "") (name : String) (s : Dict String Bytes) :
    (serve o c (snapRm (c.snapSpec name)) s).2 =
      s.filter (fun x => !(decide (x.1 = name) && !o.snapRmFails x.1)) := by
  have h2 : (serve o c (snapRm (c.snapSpec name)) s).2 = (honestRbd o c [RBD, "snap", "rm", c.snapSpec name] s).2 := by
    rw [snapRm, serve_bind, run, serve, cmd_rm (ne_snap hp _), checked]
    split <;> rename_i hx <;> revert hx <;> split <;> intro hx <;> injection hx with h1 h2 <;> rw [← h2] <;> rfl
  rw [h2, honestRbd, if_neg (by simp [RBD])]
  cases hf : s.find? (fun x => decide ([RBD, "snap", "rm", c.snapSpec name] = [RBD, "snap", "rm", c.snapSpec x.1])) with
  | some x =>
    have hx : name = x.1 := by
      have := List.find?_some hf
      simp only [decide_eq_true_eq] at this
      injection this with _ this
      injection this with _ this
      injection this with _ this
      injection this with this _
      exact snapSpec_inj this
    subst hx
    by_cases hr : o.snapRmFails x.1 = true
    · simp only [hr, if_true]
      refine (List.filter_eq_self.mpr (fun y _ => ?_)).symm
      by_cases hy : y.1 = x.1
      · rw [hy, hr]; simp
      · simp [hy]
    · simp only [hr]
      show s.filter _ = s.filter _
      refine List.filter_congr (fun y _ => ?_)
      by_cases hy : y.1 = x.1
      · rw [hy]; simp [hr]
      · simp [hy]
  | none =>
    have hs : ∀ y ∈ s, y.1 ≠ name := by
      intro y hy h
      have := List.find?_eq_none.mp hf y hy
      rw [h] at this
      simp at this
    have h3 : s.filter (fun x => !(decide (x.1 = name) && !o.snapRmFails x.1)) = s :=
      List.filter_eq_self.mpr (fun y hy => by simp [hs y hy])
    rw [h3]
    simp only
    split
    · rfl
    · split <;> rfl

theorem serve_deleteLoop (o : Rbd) (hp : c.pool ≠ "") (keep : Option String) : ∀ (l : List String) (s : Dict String Bytes),
    serve o c (deleteLoop c keep (l.map some)) s =
      (.ok (), s.filter (fun x => !(decide (x.1 ∈ l) && (isOld keep x.1 && !o.snapRmFails x.1)))) := by
  intro l
  induction l with
  | nil => intro s; simp [deleteLoop, serve]
  | cons n l ih =>
    intro s
    rw [List.map_cons, deleteLoop, serve_bind]
    have hone : serve o c (deleteOne c keep n) s =
        (.ok (), s.filter (fun x => !(decide (x.1 = n) && (isOld keep x.1 && !o.snapRmFails x.1)))) := by
      rw [deleteOne]
      by_cases ho : isOld keep n = true
      · rw [if_pos ho, serve_bind, serve_attempt]
        show (Except.ok (), (serve o c (snapRm (c.snapSpec n)) s).2) = _
        rw [serve_rm o hp]
        congr 1
        refine List.filter_congr (fun y _ => ?_)
        by_cases hy : y.1 = n
        · rw [hy]; simp [ho]
        · simp [hy]
      · rw [if_neg ho, serve]
        congr 1
        refine (List.filter_eq_self.mpr (fun y _ => ?_)).symm
        by_cases hy : y.1 = n
        · rw [hy]; simp [ho]
        · simp [hy]
    rw [hone]
    simp only
    rw [ih, List.filter_filter]
    congr 1
    refine List.filter_congr (fun y _ => ?_)
    rw [Bool.eq_iff_iff]
    by_cases hy : y.1 = n <;> by_cases hl : y.1 ∈ l <;> cases isOld keep y.1 <;> cases o.snapRmFails y.1 <;> simp [hy, hl]

/-- The commands that `_delete_old_snapshots` gives have the effect that `Model/Backup` states directly. -/
theorem C101_delete_agrees (o : Rbd) (c : Cfg) (hp : c.pool ≠ "") (repo : Repo) (snaps : Dict String Bytes) :
    serve o c (deleteOld c repo) snaps = deleteOldSnapshots o c.alwaysFull repo snaps := by
  have hls : serve o c (snapLs c.imageName) snaps =
      (if o.snapLsFails then .error .unexpected else .ok (snaps.map (fun x => some x.1)), snaps) := by
    rw [snapLs, serve_bind, run, serve, cmd_ls (ne_spec hp), honestRbd, if_pos rfl]
    cases o.snapLsFails <;> rfl
  rw [deleteOld, serve_bind, hls, deleteOldSnapshots]
  cases o.snapLsFails with
  | true => rfl
  | false =>
    simp only [Bool.false_eq_true, if_false]
    have : snaps.map (fun x => some x.1) = (snaps.map Prod.fst).map some := by rw [List.map_map]; rfl
    rw [this, serve_deleteLoop o hp]
    congr 1
    refine List.filter_congr (fun y hy => ?_)
    have : y.1 ∈ snaps.map Prod.fst := List.mem_map_of_mem hy
    simp [this]

theorem serve_parentLoop (o : Rbd) (hp : c.pool ≠ "") (repo : Repo) (snaps : Dict String Bytes) : ∀ (n : Nat) (r : Rev),
    serve o c (parentLoop c repo n r) snaps = (Backup.parentLoop snaps o.infoFails repo n r, snaps) := by
  intro n
  induction n with
  | zero => intro r; rfl
  | succ n ih =>
    intro r
    rw [parentLoop, Backup.parentLoop]
    cases hg : repo.getParent r with
    | none => rfl
    | some p =>
      have hex : serve o c (exists_ (c.snapSpec (snapName p.uuid))) snaps =
          (if o.infoFails then .error .unexpected else .ok (snaps.has (snapName p.uuid)), snaps) := by
        rw [exists_, serve, cmd_info (ne_snap hp _), honestRbd, if_neg (by simp [RBD])]
        have hf : snaps.find? (fun x => decide ([RBD, "info", c.snapSpec (snapName p.uuid), "--format=json"] =
            [RBD, "snap", "rm", c.snapSpec x.1])) = none := by
          rw [List.find?_eq_none]; intro x _; simp
        rw [hf]
        have hany : snaps.any (fun x => decide ([RBD, "info", c.snapSpec (snapName p.uuid), "--format=json"] =
            [RBD, "info", c.snapSpec x.1, "--format=json"])) = snaps.has (snapName p.uuid) := by
          rw [Bool.eq_iff_iff, List.any_eq_true]
          constructor
          · rintro ⟨x, hx, h⟩
            simp only [decide_eq_true_eq] at h
            injection h with _ h
            injection h with _ h
            injection h with h _
            rw [snapSpec_inj h]
            exact Dict.mem_keys_iff.mp (List.mem_map_of_mem hx)
          · intro h
            obtain ⟨x, hx, h⟩ := List.mem_map.mp (Dict.mem_keys_iff.mpr h)
            exact ⟨x, hx, by simp only [decide_eq_true_eq]; rw [← h]⟩
        rw [hany]
        cases o.infoFails <;> cases snaps.has (snapName p.uuid) <;> rfl
      simp only
      rw [serve_bind, hex]
      cases hi : o.infoFails with
      | true => rfl
      | false =>
        rw [hi] at ih
        simp only [Bool.false_eq_true, if_false]
        cases snaps.has (snapName p.uuid) with
        | true => rfl
        | false =>
          simp only [Bool.false_eq_true, if_false]
          exact ih p

/-- The commands of `get_parent` choose the base that `Model/Backup` states directly. -/
theorem C101_parent_agrees (o : Rbd) (c : Cfg) (hp : c.pool ≠ "") (repo : Repo) (r : Rev) (snaps : Dict String Bytes) :
    serve o c (getParent c repo r) snaps = (cephGetParent c.alwaysFull snaps o.infoFails repo r, snaps) := by
  rw [getParent, cephGetParent]
  cases c.alwaysFull with
  | true => rfl
  | false => exact serve_parentLoop o hp repo snaps _ r

/-! ## A concrete case -/

/-- The trace of a program if the commands are answered by `f` and everything else works. -/
def traceOf {α : Type} (f : List String → Ans) : Prog α → List (List String × Ans) × Except PyErr α
  | .done r => ([], r)
  | .rbd argv k => ((argv, f argv) :: (traceOf f (k (f argv))).1, (traceOf f (k (f argv))).2)
  | .other k => traceOf f (k (.ok true))

theorem traceOf_runs {α : Type} (f : List String → Ans) (p : Prog α) : Runs p (traceOf f p).1 (traceOf f p).2 := by
  induction p with
  | done r => exact .done r
  | rbd argv k ih => exact .rbd _ _ _ _ _ (ih _)
  | other k ih => exact .other _ _ _ _ (ih _)

/-- Everything works; there are three snapshots, one of them not of backy. -/
def exAnswers (argv : List String) : Ans :=
  if argv = ["rbd", "snap", "ls", "rbd/vm", "--format=json"] then
    { exit 0 with names := [some "backy-old", some "mine", some "backy-a"] }
  else { exit 0 with shown := .object [("0", [("pool", "rbd"), ("name", "vm"), ("snap", "backy-b"), ("device", "/dev/rbd0")])] }

def exCfg : Cfg := ⟨"rbd", "vm", false, false, true⟩

/-- A complete revision with a snapshot. -/
def exA : Rev := { newRev "a" 10 {"daily"} with stats := [("duration", 5)] }

def exRepo : Repo := { files := [], history := [exA, newRev "b" 20 {"daily"}] }

/-- Test (C101): the commands of an incremental backup. -/
example : (traceOf exAnswers (backup exCfg 0 exRepo (newRev "b" 20 {"daily"}))).1.map (·.1) =
    [["rbd", "info", "rbd/vm", "--format=json"],
     ["rbd", "snap", "create", "rbd/vm@backy-b"],
     ["rbd", "info", "rbd/vm@backy-a", "--format=json"],
     ["rbd", "export-diff", "rbd/vm@backy-b", "--from-snap", "backy-a", "--whole-object", "-"],
     ["rbd", "--version"],
     ["rbd", "map", "rbd/vm@backy-b", "--read-only"],
     ["rbd", "showmapped", "--format=json"],
     ["rbd", "unmap", "/dev/rbd0"],
     ["rbd", "snap", "ls", "rbd/vm", "--format=json"],
     ["rbd", "snap", "rm", "rbd/vm@backy-old"],
     ["rbd", "snap", "rm", "rbd/vm@backy-a"]] := by decide +kernel

/-- Test (C101): the image is not there. -/
example : traceOf (fun _ => exit 2) (backup exCfg 0 exRepo (newRev "b" 20 {"daily"})) =
    ([(["rbd", "info", "rbd/vm", "--format=json"], exit 2)], .error .runtime) := rfl

/-- Test (C101): the hypotheses of the theorems hold for it. -/
theorem exTrace_meets : Name exCfg.pool ∧ Name exCfg.image ∧
    ∀ x ∈ (traceOf exAnswers (backup exCfg 0 exRepo (newRev "b" 20 {"daily"}))).1, Honest x.2 := by
  refine ⟨⟨by decide, by decide, by decide, by decide⟩, ⟨by decide, by decide, by decide, by decide⟩, ?_⟩
  have h : ∀ argv, Honest (exAnswers argv) := by
    intro argv
    rw [exAnswers]
    split
    · refine ⟨fun n hn => ?_, fun e he => by cases he⟩
      simp only [List.mem_cons, Option.some.injEq, List.not_mem_nil, or_false] at hn
      rcases hn with rfl | rfl | rfl <;> exact ⟨by decide, by decide, by decide, by decide⟩
    · refine ⟨fun n hn => (by cases hn), fun e he d hd => ?_⟩
      have he : e = [("pool", "rbd"), ("name", "vm"), ("snap", "backy-b"), ("device", "/dev/rbd0")] := by
        simpa [entries, Dict.values] using he
      subst he
      have : d = "/dev/rbd0" := by
        have h : Dict.get? [("pool", "rbd"), ("name", "vm"), ("snap", "backy-b"), ("device", "/dev/rbd0")] "device" = some "/dev/rbd0" := by
          decide
        rw [h] at hd; cases hd; rfl
      rw [this]
      decide
  have h2 : ∀ {α : Type} (p : Prog α), ∀ x ∈ (traceOf exAnswers p).1, Honest x.2 := by
    intro α p
    induction p with
    | done r => intro x hx; cases hx
    | rbd argv k ih =>
      intro x hx
      rcases List.mem_cons.mp hx with rfl | hx
      · exact h argv
      · exact ih _ x hx
    | other k ih => exact ih _
  exact h2 _

/-- Test (C101): with Consul, the first listing shows the snapshot already, or no listing does. -/
example : (traceOf (fun argv => if argv = ["rbd", "snap", "ls", "rbd/vm", "--format=json"] then { exit 0 with names := [some "backy-b"] }
      else exAnswers argv) (createSnapshot { exCfg with consul := true } 2 "backy-b")).1.map (·.1) =
      [["rbd", "snap", "ls", "rbd/vm", "--format=json"]] ∧
    (traceOf exAnswers (createSnapshot { exCfg with consul := true } 2 "backy-b")).1.map (·.1) =
      [["rbd", "snap", "ls", "rbd/vm", "--format=json"], ["rbd", "snap", "ls", "rbd/vm", "--format=json"],
       ["rbd", "snap", "create", "rbd/vm@backy-b"]] := by decide +kernel

/-- The requests and answers of the example, and the program that made them. -/
theorem exTrace_runs : Runs (backup exCfg 0 exRepo (newRev "b" 20 {"daily"})) (traceOf exAnswers (backup exCfg 0 exRepo (newRev "b" 20 {"daily"}))).1
    (traceOf exAnswers (backup exCfg 0 exRepo (newRev "b" 20 {"daily"}))).2 := traceOf_runs exAnswers _

example := C101_asks_first exCfg 0 exRepo (newRev "b" 20 {"daily"}) _ _ exTrace_runs (by decide)

/-- C101_only_own_snapshots: for each command of the example. -/
example (x : List String × Ans) (hx : x ∈ (traceOf exAnswers (backup exCfg 0 exRepo (newRev "b" 20 {"daily"}))).1) :=
  C101_only_own_snapshots exCfg 0 exRepo (newRev "b" 20 {"daily"}) _ _ exTrace_runs exTrace_meets.1 exTrace_meets.2.1 (by decide) (by decide)
    exTrace_meets.2.2 x.1 x.2 hx

theorem exTrace_split (i : Nat) (argv : List String)
    (h : ((traceOf exAnswers (backup exCfg 0 exRepo (newRev "b" 20 {"daily"}))).1.map (·.1))[i]? = some argv) :
    ∃ t1 a t2, (traceOf exAnswers (backup exCfg 0 exRepo (newRev "b" 20 {"daily"}))).1 = t1 ++ (argv, a) :: t2 := by
  generalize (traceOf exAnswers (backup exCfg 0 exRepo (newRev "b" 20 {"daily"}))).1 = t at *
  rw [List.getElem?_map] at h
  obtain ⟨x, hx, rfl⟩ := Option.map_eq_some_iff.1 h
  obtain ⟨hi, rfl⟩ := List.getElem?_eq_some_iff.1 hx
  refine ⟨t.take i, t[i].2, t.drop (i + 1), ?_⟩
  show t = t.take i ++ t[i] :: t.drop (i + 1)
  rw [← List.drop_eq_getElem_cons hi, List.take_append_drop]

/-- C101_own_snapshot_last_resort: the second command makes the snapshot. -/
example : ∃ t1 a t2, (traceOf exAnswers (backup exCfg 0 exRepo (newRev "b" 20 {"daily"}))).1 = t1 ++ (["rbd", "snap", "create", "rbd/vm@backy-b"], a) :: t2 ∧
    ∀ y ∈ t1, y.1 = ["rbd", "snap", "ls", exCfg.pool ++ "/" ++ exCfg.image, "--format=json"] →
      some ("backy-" ++ (newRev "b" 20 {"daily"}).uuid) ∉ y.2.names := by
  obtain ⟨t1, a, t2, h⟩ := exTrace_split 1 ["rbd", "snap", "create", "rbd/vm@backy-b"] (by decide +kernel)
  exact ⟨t1, a, t2, h, (C101_own_snapshot_last_resort exCfg 0 exRepo (newRev "b" 20 {"daily"}) _ _ exTrace_runs (by decide) _ _ _ _ h).2⟩

/-- C101_reads_after_snapshot: the fourth command reads. -/
example : ∃ t1 a t2, (traceOf exAnswers (backup exCfg 0 exRepo (newRev "b" 20 {"daily"}))).1 =
    t1 ++ (["rbd", "export-diff", "rbd/vm@backy-b", "--from-snap", "backy-a", "--whole-object", "-"], a) :: t2 ∧
    ∃ y ∈ t1, (y.1 = ["rbd", "snap", "create", "rbd/vm@backy-b"] ∧ y.2.code = 0) ∨
      (y.1 = ["rbd", "snap", "ls", exCfg.pool ++ "/" ++ exCfg.image, "--format=json"] ∧
        some ("backy-" ++ (newRev "b" 20 {"daily"}).uuid) ∈ y.2.names) := by
  obtain ⟨t1, a, t2, h⟩ := exTrace_split 3 ["rbd", "export-diff", "rbd/vm@backy-b", "--from-snap", "backy-a", "--whole-object", "-"] (by decide +kernel)
  exact ⟨t1, a, t2, h, (C101_reads_after_snapshot exCfg 0 exRepo (newRev "b" 20 {"daily"}) _ _ exTrace_runs (by decide) _ _ _ _ "rbd/vm@backy-b" h
    (.inr (.inl ⟨_, rfl⟩))).2⟩

/-- C101_removed_snapshots: the tenth command removes a snapshot. -/
example : ∃ t1 a t2, (traceOf exAnswers (backup exCfg 0 exRepo (newRev "b" 20 {"daily"}))).1 = t1 ++ (["rbd", "snap", "rm", "rbd/vm@backy-old"], a) :: t2 ∧
    ∃ name, "rbd/vm@backy-old" = exCfg.pool ++ "/" ++ exCfg.image ++ "@" ++ name ∧ startsWith name "backy-" = true := by
  obtain ⟨t1, a, t2, h⟩ := exTrace_split 9 ["rbd", "snap", "rm", "rbd/vm@backy-old"] (by decide +kernel)
  obtain ⟨name, h1, h2, _⟩ := C101_removed_snapshots exCfg 0 exRepo (newRev "b" 20 {"daily"}) _ _ exTrace_runs (by decide) _ _ _ _ h
  exact ⟨t1, a, t2, h, name, h1, h2⟩

example := C101_delete_agrees (idealRbd [0, 0, 0, 0] [0]) exCfg (by decide) exRepo [("backy-old", [1]), ("mine", [2]), ("backy-a", [3])]
example := C101_parent_agrees (idealRbd [0, 0, 0, 0] [0]) exCfg (by decide) exRepo (newRev "b" 20 {"daily"}) [("backy-a", [3])]

end Verif.RbdCmd
