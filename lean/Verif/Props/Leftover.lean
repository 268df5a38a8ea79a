import Verif.Props.RbdCmd
/-!
# C120: snapshots do not pile up in Ceph

A snapshot of backy that is not needed any longer occupies space in the cluster and slows down the image.  Backups that fail or are
killed leave their snapshot behind.
-/
namespace Verif.Backup
open Verif Verif.Repo

/-- The snapshots of backy have the names that backy gives (identifiers have no dash). -/
def OwnNames (snaps : Dict String Bytes) : Prop :=
  ∀ n, snaps.has n = true → startsWith n "backy-" = true → ∃ u, '-' ∉ u.toList ∧ n = "backy-" ++ u

theorem OwnNames.snapshot {snaps : Dict String Bytes} (h : OwnNames snaps) {uuid : String} (hu : '-' ∉ uuid.toList) (b : Bytes) :
    OwnNames (snaps ++ [(snapName uuid, b)]) := by
  intro n hn hb
  rw [Dict.has, get?_append_single] at hn
  by_cases he : n = snapName uuid
  · exact ⟨uuid, hu, he⟩
  · rw [if_neg he] at hn
    refine h n ?_ hb
    rw [Dict.has]
    simpa using hn

/-- **C120** Whatever the outcome of a backup that could make its snapshot and list the snapshots: the only snapshots of backy that
the image has afterwards are the one of the newest revision in the repository (none if every backup is a full one) and those whose
removal failed.  In particular one that cannot be removed does not protect the others. -/
theorem C120_left (env : Env) (af : Bool) (o : Rbd) (uuid : String) (ts : Int) (tags : Finset String) (s : Sys)
    (hn : Named s.src.repo.files) (hu : '-' ∉ uuid.toList) (hs : OwnNames s.ceph.snaps)
    (hr : o.ready = true) (hc : o.snapCreateFails = false) (hnew : s.ceph.snaps.has (snapName uuid) = false) (hl : o.snapLsFails = false)
    (n : String) (hb : startsWith n "backy-" = true) (hh : (runBackup env af o uuid ts tags s).2.ceph.snaps.has n = true) :
    o.snapRmFails n = true ∨
      (af = false ∧ ∃ r, (s.launch uuid ts tags).src.repo.localHistory.getLast? = some r ∧ n = "backy-" ++ r.uuid) := by
  rw [(runBackup_launch env af o uuid ts tags s hn).1] at hh
  have hsn : (s.launch uuid ts tags).ceph = s.ceph := rfl
  unfold backup at hh
  rw [if_neg (by simp [hr]), if_neg (by
    rw [hsn]
    have : s.ceph.snaps.has (snapName (newRev uuid ts tags).uuid) = false := hnew
    simp [hc, this])] at hh
  replace hh : (deleteOldSnapshots o af (s.launch uuid ts tags).src.repo
    (s.ceph.snaps ++ [(snapName uuid, s.ceph.image)])).2.has n = true := hh
  rw [deleteOldSnapshots, if_neg (by simp [hl]), Dict.has] at hh
  rw [Dict.get?_filter (p := fun x => !(isOld (keepSnapshot af (s.launch uuid ts tags).src.repo) x && !o.snapRmFails x))] at hh
  split at hh
  · rename_i hp
    cases hrm : o.snapRmFails n with
    | true => exact .inl rfl
    | false =>
      right
      have hold : isOld (keepSnapshot af (s.launch uuid ts tags).src.repo) n = false := by
        rw [hrm] at hp
        cases hi : isOld (keepSnapshot af (s.launch uuid ts tags).src.repo) n with
        | true => rw [hi] at hp; cases hp
        | false => rfl
      obtain ⟨u, hu1, rfl⟩ := (hs.snapshot hu s.ceph.image) n hh hb
      rw [isOld, hb, Bool.true_and, decide_eq_false_iff_not, not_not] at hold
      have hsu : snapUuid ("backy-" ++ u) = u := snapUuid_snapName hu1
      rw [hsu, keepSnapshot] at hold
      cases af with
      | true => cases hold
      | false =>
        refine ⟨rfl, ?_⟩
        simp only [Bool.false_eq_true, if_false] at hold
        cases hg : (s.launch uuid ts tags).src.repo.localHistory.getLast? with
        | none => rw [hg] at hold; cases hold
        | some r => rw [hg] at hold; cases hold; exact ⟨r, rfl, rfl⟩
  · cases hh

/-- **C120** If removing works, there is at most one, however many there were before. -/
theorem C120_at_most_one (env : Env) (af : Bool) (o : Rbd) (uuid : String) (ts : Int) (tags : Finset String) (s : Sys)
    (hn : Named s.src.repo.files) (hu : '-' ∉ uuid.toList) (hs : OwnNames s.ceph.snaps)
    (hr : o.ready = true) (hc : o.snapCreateFails = false) (hnew : s.ceph.snaps.has (snapName uuid) = false) (hl : o.snapLsFails = false)
    (hrm : ∀ n, o.snapRmFails n = false) (n m : String) (hbn : startsWith n "backy-" = true) (hbm : startsWith m "backy-" = true)
    (hhn : (runBackup env af o uuid ts tags s).2.ceph.snaps.has n = true)
    (hhm : (runBackup env af o uuid ts tags s).2.ceph.snaps.has m = true) : n = m ∧ af = false := by
  rcases C120_left env af o uuid ts tags s hn hu hs hr hc hnew hl n hbn hhn with h | ⟨ha, r, h1, h2⟩
  · rw [hrm] at h; cases h
  rcases C120_left env af o uuid ts tags s hn hu hs hr hc hnew hl m hbm hhm with h | ⟨_, r', h3, h4⟩
  · rw [hrm] at h; cases h
  rw [h1] at h3
  cases h3
  exact ⟨h2.trans h4.symm, ha⟩

/-- A killed backup has left its snapshot; so has another one. -/
def exMany : Sys := { exChanged with ceph := { exChanged.ceph with snaps := exChanged.ceph.snaps ++ [("backy-x", [7]), ("backy-y", [8])] } }

/-- Test (C120): there are three snapshots of backy before the backup and one after it. -/
example : ((exMany.ceph.snaps.keys).filter (fun n => startsWith n "backy-")).length = 3 ∧
    ((runBackup Test.env false (idealRbd [0, 0, 0, 0, 2, 2, 2, 2] [1]) "b" 20 {"daily"} exMany.connect).2.ceph.snaps.keys).filter
      (fun n => startsWith n "backy-") = ["backy-b"] := by decide +kernel

theorem exMany_own : OwnNames exMany.connect.ceph.snaps := by
  intro n hn hb
  have hk : n ∈ exMany.connect.ceph.snaps.keys := by
    rw [Dict.mem_keys_iff]
    rw [Dict.has] at hn
    exact hn
  have : ∀ n ∈ exMany.connect.ceph.snaps.keys, startsWith n "backy-" = true → n = "backy-a" ∨ n = "backy-x" ∨ n = "backy-y" := by
    decide +kernel
  rcases this n hk hb with rfl | rfl | rfl
  · exact ⟨"a", by decide, rfl⟩
  · exact ⟨"x", by decide, rfl⟩
  · exact ⟨"y", by decide, rfl⟩

/-- C120_left and C120_at_most_one: the backup of the example. -/
example := C120_at_most_one Test.env false (idealRbd [0, 0, 0, 0, 2, 2, 2, 2] [1]) "b" 20 {"daily"} exMany.connect exChanged_named
  (by decide) exMany_own rfl rfl (by decide +kernel) rfl (fun _ => rfl) "backy-b" "backy-b" (by decide +kernel) (by decide +kernel)
  (by decide +kernel) (by decide +kernel)

/-- C120_left: the protected snapshot "backy-x" of the next example. -/
example := C120_left Test.env false { idealRbd [0, 0, 0, 0, 2, 2, 2, 2] [1] with snapRmFails := fun n => decide (n = "backy-x") } "b" 20 {"daily"}
  exMany.connect exChanged_named (by decide) exMany_own rfl rfl (by decide +kernel) rfl "backy-x" (by decide +kernel) (by decide +kernel)

/-- C120_left: "backy-x" is protected, "backy-y" goes. -/
example : ((runBackup Test.env false { idealRbd [0, 0, 0, 0, 2, 2, 2, 2] [1] with snapRmFails := fun n => decide (n = "backy-x") }
      "b" 20 {"daily"} exMany.connect).2.ceph.snaps.keys).filter (fun n => startsWith n "backy-") = ["backy-x", "backy-b"] := by
  decide +kernel

end Verif.Backup

namespace Verif.RbdCmd
open Verif Verif.Repo Verif.Backup

variable {c : Cfg}

theorem deleteLoop_trace (hp : c.pool ≠ "") {keep : Option String} : ∀ (l : List String) {t : Trace} {r : Except PyErr Unit},
    Runs (deleteLoop c keep (l.map some)) t r →
    t.map (·.1) = (l.filter (isOld keep)).map (fun n => ["rbd", "snap", "rm", c.snapSpec n]) ∧ r = .ok () := by
  intro l
  induction l with
  | nil => intro t r h; obtain ⟨rfl, rfl⟩ := Runs.done_inv h; exact ⟨rfl, rfl⟩
  | cons n l ih =>
    intro t r h
    rw [List.map_cons, deleteLoop] at h
    have hone : ∀ {t : Trace} {r : Except PyErr Unit}, Runs (deleteOne c keep n) t r →
        t.map (·.1) = ([n].filter (isOld keep)).map (fun n => ["rbd", "snap", "rm", c.snapSpec n]) ∧ r = .ok () := by
      intro t r h
      rw [deleteOne] at h
      split at h
      · rename_i ho
        replace h := h.bind_inv; rcases h with ⟨e, h, _⟩ | ⟨b, t1, t2, rfl, h, h2⟩
        · obtain ⟨_, h', _⟩ := h.attempt_inv; cases h'
        · obtain ⟨_, _, h⟩ := h.attempt_inv
          obtain ⟨x, rfl⟩ := snapRm_inv (ne_snap hp n) h
          obtain ⟨rfl, rfl⟩ := h2.done_inv
          rw [List.filter_cons_of_pos ho]
          exact ⟨rfl, rfl⟩
      · rename_i ho
        obtain ⟨rfl, rfl⟩ := h.done_inv
        rw [List.filter_cons_of_neg ho]
        exact ⟨rfl, rfl⟩
    replace h := h.bind_inv; rcases h with ⟨e, h, _⟩ | ⟨b, t1, t2, rfl, h, h2⟩
    · cases (hone h).2
    · obtain ⟨h3, _⟩ := hone h
      obtain ⟨h4, h5⟩ := ih h2
      refine ⟨?_, h5⟩
      rw [List.map_append, h3, h4, ← List.map_append, ← List.filter_append]
      rfl

theorem deleteLoop_rm (hp : c.pool ≠ "") {keep : Option String} : ∀ (l : List (Option String)) {t : Trace} {r : Except PyErr Unit},
    Runs (deleteLoop c keep l) t r → ∀ z ∈ t, ∃ n, z.1 = ["rbd", "snap", "rm", n] := by
  intro l
  induction l with
  | nil => intro t r h z hz; rw [(Runs.done_inv h).1] at hz; cases hz
  | cons y l ih =>
    intro t r h
    cases y with
    | none => intro z hz; rw [deleteLoop] at h; rw [h.done_inv.1] at hz; cases hz
    | some n =>
      rw [deleteLoop] at h
      have hone : ∀ {t : Trace} {r : Except PyErr Unit}, Runs (deleteOne c keep n) t r → ∀ z ∈ t, ∃ n, z.1 = ["rbd", "snap", "rm", n] := by
        intro t r h z hz
        rw [deleteOne] at h
        split at h
        · replace h := h.bind_inv; rcases h with ⟨e, h, _⟩ | ⟨_, t1, t2, rfl, h, h2⟩
          · obtain ⟨_, h', _⟩ := h.attempt_inv; cases h'
          · obtain ⟨_, _, h⟩ := h.attempt_inv
            obtain ⟨x, rfl⟩ := snapRm_inv (ne_snap hp _) h
            rw [h2.done_inv.1, List.append_nil, List.mem_singleton] at hz
            exact ⟨_, by rw [hz]; rfl⟩
        · rw [h.done_inv.1] at hz; cases hz
      replace h := h.bind_inv; rcases h with ⟨e, h, rfl⟩ | ⟨_, t1, t2, rfl, h, h2⟩
      · exact hone h
      · intro z hz
        rcases List.mem_append.mp hz with hz | hz
        · exact hone h z hz
        · exact ih h2 z hz

theorem ready_reads (hp : c.pool ≠ "") {t : Trace} {r : Except PyErr Bool} (h : Runs (ready c) t r) :
    ∀ y ∈ t, ∀ arg, ¬ ReadsFrom y.1 arg := by
  rw [ready] at h
  have key : ∀ {t : Trace} {r : Except PyErr Bool}, Runs (exists_ c.imageName) t r → ∀ y ∈ t, ∀ arg, ¬ ReadsFrom y.1 arg := by
    intro t r h y hy arg hr
    obtain ⟨x, rfl, _⟩ := exists_inv (ne_spec hp) h
    rw [List.mem_singleton] at hy
    subst hy
    rcases hr with ⟨_, hr⟩ | ⟨_, hr⟩ | ⟨_, hr⟩ <;> simp at hr
  replace h := h.bind_inv; rcases h with ⟨e, h, _⟩ | ⟨b, t1, t2, rfl, h, h2⟩
  · obtain ⟨_, h', _⟩ := h.attempt_inv; cases h'
  · obtain ⟨_, _, h⟩ := h.attempt_inv
    obtain ⟨rfl, _⟩ := h2.done_inv
    rw [List.append_nil]
    exact key h

theorem create_reads (hp : c.pool ≠ "") {n : Nat} {name : String} {t : Trace} {r : Except PyErr Unit}
    (h : Runs (createSnapshot c n name) t r) : ∀ y ∈ t, ∀ arg, ¬ ReadsFrom y.1 arg := by
  have hcr : ∀ {t : Trace} {r : Except PyErr Unit}, Runs (snapCreate (c.snapSpec name)) t r → ∀ y ∈ t, ∀ arg, ¬ ReadsFrom y.1 arg := by
    intro t r h y hy arg hr
    obtain ⟨x, rfl, _⟩ := snapCreate_inv (ne_snap hp name) h
    rw [List.mem_singleton] at hy
    subst hy
    rcases hr with ⟨_, hr⟩ | ⟨_, hr⟩ | ⟨_, hr⟩ <;> simp at hr
  have hls : ∀ {t : Trace} {r : Except PyErr (List (Option String))}, Runs (snapLs c.imageName) t r → ∀ y ∈ t, ∀ arg, ¬ ReadsFrom y.1 arg := by
    intro t r h y hy arg hr
    obtain ⟨x, rfl, _⟩ := snapLs_inv (ne_spec hp) h
    rw [List.mem_singleton] at hy
    subst hy
    rcases hr with ⟨_, hr⟩ | ⟨_, hr⟩ | ⟨_, hr⟩ <;> simp at hr
  have hpoll : ∀ (n : Nat) {t : Trace} {r : Except PyErr Unit}, Runs (poll c name n) t r → ∀ y ∈ t, ∀ arg, ¬ ReadsFrom y.1 arg := by
    intro n
    induction n with
    | zero => intro t r h; exact hcr h
    | succ n ih =>
      intro t r h
      rw [poll] at h
      replace h := h.bind_inv; rcases h with ⟨e, h, _⟩ | ⟨l, t1, t2, rfl, h, h2⟩
      · exact hls h
      · intro y hy
        rcases List.mem_append.mp hy with hy | hy
        · exact hls h y hy
        · replace h2 := h2.bind_inv; rcases h2 with ⟨e, h2, _⟩ | ⟨f, t3, t4, rfl, h2, h3⟩
          · obtain ⟨rfl, _⟩ := h2.done_inv; cases hy
          · obtain ⟨rfl, _⟩ := h2.done_inv
            split at h3
            · obtain ⟨rfl, _⟩ := h3.done_inv; cases hy
            · exact ih h3 y hy
  rw [createSnapshot] at h
  split at h
  · exact hcr h
  · replace h := h.bind_inv; rcases h with ⟨e, h, _⟩ | ⟨_, t1, t2, rfl, h, h2⟩
    · rw [h.work_inv]; intro y hy; cases hy
    · rw [h.work_inv, List.nil_append]
      obtain ⟨_, t3, t4, _, rfl, h3, h4⟩ := h2.finally_inv
      rw [workUnit_inv h4, List.append_nil]
      exact hpoll _ h3

/-- **C120** Every backup that has read any data, whatever its outcome, ends with a listing of the snapshots; if the listing can be
read, the commands after it ask for the removal of each listed snapshot of backy but the one of the newest local revision, whatever
the answers to the other commands are. -/
theorem C120_asked (c : Cfg) (rounds : Nat) (repo : Repo) (r : Rev) (t : List (List String × Ans)) (res : Except PyErr Bool)
    (h : Runs (backup c rounds repo r) t res) (hp : c.pool ≠ "") (y : List String × Ans) (hy : y ∈ t) (arg : String)
    (hr : ReadsFrom y.1 arg) :
    ∃ t1 a t2, t = t1 ++ (["rbd", "snap", "ls", c.pool ++ "/" ++ c.image, "--format=json"], a) :: t2 ∧ y ∈ t1 ∧
      ∀ names : List String, a.code = 0 → a.json = true → a.names = names.map some →
        ∃ old : List String, t2.map (·.1) = old.map (fun n => ["rbd", "snap", "rm", c.pool ++ "/" ++ c.image ++ "@" ++ n]) ∧
          ∀ n ∈ names, startsWith n "backy-" = true →
            n ∈ old ∨ (c.alwaysFull = false ∧ ∃ newest, repo.localHistory.getLast? = some newest ∧ snapUuid n = newest.uuid) := by
  rw [backup] at h
  replace h := h.bind_inv; rcases h with ⟨e, h, rfl⟩ | ⟨ok, t0, t1, rfl, h0, h⟩
  · exact absurd hr (ready_reads hp h y hy arg)
  have hy : y ∈ t1 := by
    rcases List.mem_append.mp hy with hy | hy
    · exact absurd hr (ready_reads hp h0 y hy arg)
    · exact hy
  split at h
  · replace h := h.bind_inv; rcases h with ⟨e, h, _⟩ | ⟨b, t2, t3, rfl, h, h3⟩
    · obtain ⟨_, h', _⟩ := h.attempt_inv; cases h'
    rw [h3.work_inv, List.append_nil] at hy ⊢
    obtain ⟨_, _, h⟩ := h.attempt_inv
    replace h := h.bind_inv; rcases h with ⟨e, h, rfl⟩ | ⟨_, t4, t5, rfl, h4, h⟩
    · exact absurd hr (create_reads hp h y hy arg)
    have hy : y ∈ t5 := by
      rcases List.mem_append.mp hy with hy | hy
      · exact absurd hr (create_reads hp h4 y hy arg)
      · exact hy
    obtain ⟨_, t6, t7, rd, rfl, h6, h7⟩ := h.finally_inv
    rw [deleteOld] at h7
    have hls : ∀ {r : Except PyErr (List (Option String))} {t : Trace}, Runs (snapLs c.imageName) t r → ∃ a,
        t = [(["rbd", "snap", "ls", c.pool ++ "/" ++ c.image, "--format=json"], a)] ∧ (∀ l, r = .ok l → l = a.names) ∧
        (∀ e, r = .error e → ¬ (a.code = 0 ∧ a.json = true)) := by
      intro r t h
      obtain ⟨x, rfl, h1⟩ := snapLs_inv (ne_spec hp) h
      refine ⟨x, rfl, h1, ?_⟩
      rintro e rfl ⟨hc, hj⟩
      rw [snapLs, run, cmd_ls (ne_spec hp)] at h
      cases h with
      | rbd _ _ _ _ _ h =>
        have hf : failure true x = none := by rw [failure, if_neg (by simp [hc]), if_neg (by simp [hj])]
        have hk : checked true x = .done (.ok x) := by rw [checked, hf]
        simp only [hk, Prog.bind] at h
        cases h
    have memL : ∀ (x : List String × Ans) (l : Trace), x ∈ t7 → (∃ a, t7 = (["rbd", "snap", "ls", c.pool ++ "/" ++ c.image, "--format=json"], a) :: l ∧
        (∀ z ∈ l, ∃ n, z.1 = ["rbd", "snap", "rm", n])) → ¬ ReadsFrom x.1 arg := by
      rintro x l hx ⟨a, rfl, hz⟩ hr
      rcases List.mem_cons.mp hx with rfl | hx
      · rcases hr with ⟨_, hr⟩ | ⟨_, hr⟩ | ⟨_, hr⟩ <;> simp at hr
      · obtain ⟨n, hn⟩ := hz x hx
        rw [hn] at hr
        rcases hr with ⟨_, hr⟩ | ⟨_, hr⟩ | ⟨_, hr⟩ <;> simp at hr
    replace h7 := h7.bind_inv; rcases h7 with ⟨e, h7, rfl⟩ | ⟨l, t8, t9, rfl, h8, h9⟩
    · obtain ⟨a, rfl, _, h10⟩ := hls h7
      refine ⟨t0 ++ (t4 ++ t6), a, [], by simp [List.append_assoc], ?_, fun names hc hj _ => absurd ⟨hc, hj⟩ (h10 e rfl)⟩
      rcases List.mem_append.mp hy with hy | hy
      · exact List.mem_append_right _ (List.mem_append_right _ hy)
      · exact absurd hr (memL y [] hy ⟨a, rfl, fun z hz => by cases hz⟩)
    · obtain ⟨a, rfl, h10, _⟩ := hls h8
      have hl : l = a.names := h10 l rfl
      subst hl
      refine ⟨t0 ++ (t4 ++ t6), a, t9, by simp [List.append_assoc], ?_, ?_⟩
      · rcases List.mem_append.mp hy with hy | hy
        · exact List.mem_append_right _ (List.mem_append_right _ hy)
        · refine absurd hr (memL y t9 hy ⟨a, rfl, ?_⟩)
          exact deleteLoop_rm hp a.names h9
      · intro names hc hj hnames
        rw [hnames] at h9
        obtain ⟨h11, _⟩ := deleteLoop_trace hp names h9
        refine ⟨names.filter (isOld (keepSnapshot c.alwaysFull repo)), h11, fun n hn hb => ?_⟩
        by_cases ho : isOld (keepSnapshot c.alwaysFull repo) n = true
        · exact .inl (List.mem_filter.mpr ⟨hn, ho⟩)
        · right
          rw [isOld, hb, Bool.true_and, decide_eq_true_iff, not_not, keepSnapshot] at ho
          cases haf : c.alwaysFull with
          | true => rw [haf] at ho; cases ho
          | false =>
            rw [haf] at ho
            simp only [Bool.false_eq_true, if_false] at ho
            cases hg : repo.localHistory.getLast? with
            | none => rw [hg] at ho; cases ho
            | some x => rw [hg] at ho; exact ⟨rfl, x, rfl, Option.some.inj ho⟩
  · obtain ⟨rfl, _⟩ := h.done_inv; cases hy

theorem exTrace_six : ((traceOf exAnswers (backup exCfg 0 exRepo (newRev "b" 20 {"daily"}))).1[5]'(by decide +kernel)) ∈
    (traceOf exAnswers (backup exCfg 0 exRepo (newRev "b" 20 {"daily"}))).1 := List.getElem_mem _

/-- C120_asked: the incremental backup of the example, and the same with removals that fail. -/
example := C120_asked exCfg 0 exRepo (newRev "b" 20 {"daily"}) _ _ (traceOf_runs exAnswers _) (by decide)
  _ (exTrace_six)
  "rbd/vm@backy-b" (.inr (.inr ⟨["--read-only"], by decide +kernel⟩))

example : ((traceOf (fun argv => if argv.take 3 = ["rbd", "snap", "rm"] then exit 1 else exAnswers argv)
      (backup exCfg 0 exRepo (newRev "b" 20 {"daily"}))).1.map (·.1)).drop 9 =
    [["rbd", "snap", "rm", "rbd/vm@backy-old"], ["rbd", "snap", "rm", "rbd/vm@backy-a"]] := by decide +kernel

end Verif.RbdCmd
