import Verif.Model.FullOps
import Verif.Props.Expiry
import Verif.Props.Lasting
import Verif.Props.Gc
/-!
# C141, C142: changing metadata on a disk that may be full
-/
namespace Verif.FullDisk
open Verif Verif.Repo Verif.Repo.Spec Verif.Backup

/-- The function has done everything as on a disk with room, or it has failed with what was stored at some moment on a disk with room. -/
def Cut (f0 : Dict String RevFile) (x : Out) (y : Except PyErr Unit × Repo) : Prop :=
  (∃ n, x = (y.1, n, y.2)) ∨ x.1 = .error .os ∧ (x.2.2.files = f0 ∨ x.2.2.files ∈ y.2.log)

/-- All writes fail. -/
def Never (d : Drive) : Prop := ∀ n, d n ≠ .done

/-- The state is unchanged if the function succeeds, the files are in any case. -/
def Idle (x : Out) (s : Repo) : Prop := x.2.2.files = s.files ∧ (x.1 = .ok () → x.2.2 = s)

theorem logged_mono {f0 : Dict String RevFile} {s t : Repo} (h : Logged f0 s) (hst : s.log ⊆ t.log) : s.files = f0 ∨ s.files ∈ t.log :=
  h.imp id (fun h => hst h)

theorem store_log (s : Repo) (r : Rev) : s.log ⊆ (s.store r).log := fun _ h => List.mem_cons_of_mem _ h

theorem remove_log (s : Repo) (r : Rev) : s.log ⊆ (s.remove r).log := by
  unfold Repo.remove
  split
  · exact store_log _ _
  · exact fun _ h => List.mem_cons_of_mem _ h

theorem foldl_log (g : Repo → Rev → Repo) (hg : ∀ s r, s.log ⊆ (g s r).log) : ∀ (l : List Rev) (s : Repo), s.log ⊆ (l.foldl g s).log
  | [], _ => fun _ h => h
  | r :: l, s => fun _ h => foldl_log g hg l (g s r) (hg s r h)

theorem expireRevs_log (tag : String) (thr : Int) : ∀ (l : List Rev) (s : Repo), s.log ⊆ (Repo.expireRevs tag thr l s).2.log
  | [], _ => fun _ h => h
  | r :: l, s => by
    simp only [Repo.expireRevs]
    split
    · exact expireRevs_log tag thr l s
    · split
      · exact fun _ h => h
      · exact fun _ h => expireRevs_log tag thr l _ (store_log s _ h)

theorem expireTag_log (pd : String → Option Int) (now : Int) (tag : String) (a : TagSpec) (s : Repo) :
    s.log ⊆ (Repo.expireTag pd now tag a s).2.log := by
  unfold Repo.expireTag
  cases findRevisions ⟨s.history, pd⟩ ("tag:" ++ tag) with
  | error e => exact fun _ h => h
  | ok revs =>
    dsimp only
    split
    · exact fun _ h => h
    · exact expireRevs_log _ _ _ _

theorem expirePhase1_log (pd : String → Option Int) (now : String → Int) : ∀ (l : List (String × TagSpec)) (s : Repo),
    s.log ⊆ (Repo.expirePhase1 pd now l s).2.log
  | [], _ => fun _ h => h
  | (tag, a) :: l, s => by
    have h1 := expireTag_log pd (now tag) tag a s
    simp only [Repo.expirePhase1]
    generalize Repo.expireTag pd (now tag) tag a s = x at *
    obtain ⟨x1, x2⟩ := x
    cases x1 with
    | error e => exact h1
    | ok u => exact fun _ h => expirePhase1_log pd now l x2 (h1 h)

theorem expireTag_logged {f0 : Dict String RevFile} (pd : String → Option Int) (now : Int) (tag : String) (a : TagSpec) {s : Repo}
    (h : Logged f0 s) : Logged f0 (Repo.expireTag pd now tag a s).2 := by
  unfold Repo.expireTag
  cases findRevisions ⟨s.history, pd⟩ ("tag:" ++ tag) with
  | error e => exact h
  | ok revs =>
    dsimp only
    split
    · exact h
    · exact expireRevs_logged _ _ _ _ h

theorem put_ok {d : Drive} {n : Nat} (h : d n = .done) (r : Rev) (s : Repo) : put d n r s = (.ok (), n + 1, s.store r) := by
  rw [put, if_pos h]

theorem put_fails {d : Drive} {n : Nat} (h : ¬ d n = .done) (r : Rev) (s : Repo) : put d n r s = (.error .os, n + 1, s.assign r) := by
  rw [put, if_neg h]

theorem expireRevs_cut (d : Drive) (tag : String) (thr : Int) {f0 : Dict String RevFile} : ∀ (l : List Rev) (n : Nat) (s : Repo), Logged f0 s →
    Cut f0 (expireRevs d tag thr l n s) (Repo.expireRevs tag thr l s)
  | [], n, s, _ => .inl ⟨n, rfl⟩
  | r :: l, n, s, h => by
    simp only [expireRevs, Repo.expireRevs]
    split
    · exact expireRevs_cut d tag thr l n s h
    · split
      · exact .inl ⟨n, rfl⟩
      · by_cases hd : d n = .done
        · rw [put_ok hd]
          exact expireRevs_cut d tag thr l (n + 1) _ (Logged.store _ _)
        · rw [put_fails hd]
          exact .inr ⟨rfl, logged_mono h (fun _ h => expireRevs_log tag thr l _ (store_log s _ h))⟩

theorem expireTag_cut (d : Drive) (pd : String → Option Int) (now : Int) (tag : String) (a : TagSpec) {f0 : Dict String RevFile} (n : Nat)
    (s : Repo) (h : Logged f0 s) : Cut f0 (expireTag d pd now tag a n s) (Repo.expireTag pd now tag a s) := by
  unfold expireTag Repo.expireTag
  cases findRevisions ⟨s.history, pd⟩ ("tag:" ++ tag) with
  | error e => exact .inl ⟨n, rfl⟩
  | ok revs =>
    dsimp only
    split
    · exact .inl ⟨n, rfl⟩
    · exact expireRevs_cut d tag _ _ n s h

theorem expirePhase1_cut (d : Drive) (pd : String → Option Int) (now : String → Int) {f0 : Dict String RevFile} :
    ∀ (l : List (String × TagSpec)) (n : Nat) (s : Repo), Logged f0 s →
    Cut f0 (expirePhase1 d pd now l n s) (Repo.expirePhase1 pd now l s)
  | [], n, s, _ => .inl ⟨n, rfl⟩
  | (tag, a) :: l, n, s, h => by
    have hc := expireTag_cut d pd (now tag) tag a n s h
    have hl := expireTag_logged pd (now tag) tag a h
    simp only [expirePhase1, Repo.expirePhase1]
    generalize expireTag d pd (now tag) tag a n s = x at *
    generalize Repo.expireTag pd (now tag) tag a s = y at *
    obtain ⟨y1, y2⟩ := y
    rcases hc with ⟨m, rfl⟩ | ⟨h1, h2⟩
    · cases y1 with
      | error e => exact .inl ⟨m, rfl⟩
      | ok u => exact expirePhase1_cut d pd now l m y2 hl
    · obtain ⟨x1, x2, x3⟩ := x
      dsimp only at h1 h2
      subst h1
      refine .inr ⟨rfl, h2.imp id (fun h2 => ?_)⟩
      cases y1 with
      | error e => exact h2
      | ok u => exact expirePhase1_log pd now l y2 h2

/-- The function that phase 2 does for every revision. -/
def former (sch : Schedule) (s : Repo) (r : Rev) : Repo :=
  if expiredTags sch r.tags ≠ ∅ then s.store { r with tags := r.tags \ expiredTags sch r.tags } else s

theorem former_log (sch : Schedule) (s : Repo) (r : Rev) : s.log ⊆ (former sch s r).log := by
  unfold former
  split
  · exact store_log _ _
  · exact fun _ h => h

theorem expirePhase2_cut (d : Drive) (sch : Schedule) {f0 : Dict String RevFile} : ∀ (l : List Rev) (n : Nat) (s : Repo), Logged f0 s →
    Cut f0 (expirePhase2 d sch l n s) (.ok (), l.foldl (former sch) s)
  | [], n, s, _ => .inl ⟨n, rfl⟩
  | r :: l, n, s, h => by
    simp only [expirePhase2, List.foldl_cons]
    by_cases he : expiredTags sch r.tags ≠ ∅
    · have hf : former sch s r = s.store { r with tags := r.tags \ expiredTags sch r.tags } := if_pos he
      rw [if_pos he, hf]
      by_cases hd : d n = .done
      · rw [put_ok hd]
        exact expirePhase2_cut d sch l (n + 1) _ (Logged.store _ _)
      · rw [put_fails hd]
        exact .inr ⟨rfl, logged_mono h (fun _ h => foldl_log _ (former_log sch) l _ (store_log s _ h))⟩
    · have hf : former sch s r = s := if_neg he
      rw [if_neg he, hf]
      exact expirePhase2_cut d sch l n s h

theorem removeAll_cut (d : Drive) {f0 : Dict String RevFile} : ∀ (l : List Rev) (n : Nat) (s : Repo), Logged f0 s →
    Cut f0 (removeAll d l n s) (.ok (), l.foldl (fun s r => s.remove r) s)
  | [], n, s, _ => .inl ⟨n, rfl⟩
  | r :: l, n, s, h => by
    simp only [removeAll, List.foldl_cons, remove]
    by_cases he : r.server ≠ ""
    · have hf : s.remove r = s.store { r with tags := ∅ } := if_pos ⟨rfl, he⟩
      rw [if_pos he, hf]
      by_cases hd : d n = .done
      · rw [put_ok hd]
        exact removeAll_cut d l (n + 1) _ (Logged.store _ _)
      · rw [put_fails hd]
        exact .inr ⟨rfl, logged_mono h (fun _ h => foldl_log _ remove_log l _ (store_log s _ h))⟩
    · have hf : s.remove r = s.drop r := if_neg (fun h => he h.2)
      rw [if_neg he]
      have := removeAll_cut d (f0 := f0) l n (s.remove r) (Logged.remove _ _)
      rw [hf] at this ⊢
      exact this

/-- The result of an expiry without the list it returns. -/
def plain (x : Except PyErr (List Rev) × Repo) : Except PyErr Unit × Repo := (x.1.map (fun _ => ()), x.2)

/-- Expiry on a disk with room, as three phases. -/
theorem expire_phases (sch : Schedule) (pd : String → Option Int) (now : String → Int) (s : Repo) :
    plain (sch.expire pd now s) = match Repo.expirePhase1 pd now sch s.scan with
      | (.error e, s) => (.error e, s)
      | (.ok (), s) => (.ok (), ((s.history.foldl (former sch) s).history.filter (fun r => decide (r.tags = ∅))).foldl
          (fun s r => s.remove r) (s.history.foldl (former sch) s)) := by
  unfold Schedule.expire plain
  generalize Repo.expirePhase1 pd now sch s.scan = y
  obtain ⟨y1, y2⟩ := y
  cases y1 with
  | error e => rfl
  | ok u => rfl

/-- **C141** Whatever writes fail: an expiry does the same as on a disk with room, or it fails with an error and what is stored is what
an expiry on a disk with room goes through. -/
theorem C141_expire (d : Drive) (sch : Schedule) (pd : String → Option Int) (now : String → Int) (s : Repo) :
    expire d sch pd now s = plain (sch.expire pd now s) ∨
    (expire d sch pd now s).1 = .error .os ∧
      ((expire d sch pd now s).2.files = s.files ∨ (expire d sch pd now s).2.files ∈ (sch.expire pd now s).2.log) := by
  have h0 : Logged s.files s.scan := .inl rfl
  have h1 := expirePhase1_logged pd now sch s.scan h0
  have c1 := expirePhase1_cut d pd now sch 0 s.scan h0
  have hp := expire_phases sch pd now s
  have hlog : (plain (sch.expire pd now s)).2.log = (sch.expire pd now s).2.log := rfl
  rw [← hlog]
  unfold expire
  rw [hp]
  generalize expirePhase1 d pd now sch 0 s.scan = x at *
  generalize Repo.expirePhase1 pd now sch s.scan = y at *
  obtain ⟨y1, y2⟩ := y
  have hmono : ∀ f ∈ y2.log, f ∈ (((y2.history.foldl (former sch) y2).history.filter (fun r => decide (r.tags = ∅))).foldl
          (fun s r => s.remove r) (y2.history.foldl (former sch) y2)).log := fun f hf =>
    foldl_log _ remove_log _ _ (foldl_log _ (former_log sch) _ _ hf)
  rcases c1 with ⟨m, rfl⟩ | ⟨e1, e2⟩
  · cases y1 with
    | error e => exact .inl rfl
    | ok u =>
      dsimp only
      have h2 : Logged s.files (y2.history.foldl (former sch) y2) := by
        refine foldl_logged _ ?_ _ _ h1
        intro s r hs
        unfold former
        split
        · exact Logged.store _ _
        · exact hs
      have c2 := expirePhase2_cut d sch y2.history m y2 h1
      generalize expirePhase2 d sch y2.history m y2 = z at *
      rcases c2 with ⟨k, rfl⟩ | ⟨e1, e2⟩
      · dsimp only
        have c3 := removeAll_cut d ((y2.history.foldl (former sch) y2).history.filter (fun r => decide (r.tags = ∅))) k _ h2
        unfold expirePhase3
        rcases c3 with ⟨i, hi⟩ | ⟨e1, e2⟩
        · rw [hi]
          exact .inl rfl
        · exact .inr ⟨e1, e2⟩
      · obtain ⟨z1, z2, z3⟩ := z
        dsimp only at e1 e2
        subst e1
        exact .inr ⟨rfl, e2.imp id (fun h => foldl_log _ remove_log _ _ h)⟩
  · obtain ⟨x1, x2, x3⟩ := x
    dsimp only at e1 e2
    subst e1
    refine .inr ⟨rfl, e2.imp id (fun h => ?_)⟩
    cases y1 with
    | error e => exact h
    | ok u => exact hmono _ h

/-- **C141** An expiry that was cut off by a full disk does not matter: when it is run again on a disk with room, at the same or a later
time, the same is stored as if it had never been tried. -/
theorem C141_expire_again (d : Drive) (sch : Schedule) (hs : GoodSchedule sch) (now1 now2 : String → Int) (hle : ∀ t, now1 t ≤ now2 t)
    (pd : String → Option Int) (s : Repo) (hn : Named s.files) (hlog : s.log = [])
    (hdist : ∀ a ∈ s.scan.history, ∀ b ∈ s.scan.history, a.ts = b.ts → a = b) (u : String) :
    onDisk (sch.expire pd now2 ⟨(expire d sch pd now1 s).2.files, [], []⟩).2.files u = onDisk (sch.expire pd now2 s).2.files u := by
  refine C29_restartable sch hs now1 now2 hle pd s hn hlog hdist (expire d sch pd now1 s).2.files ?_ ⟨(expire d sch pd now1 s).2.files, [], []⟩ (List.Perm.refl _) rfl u
  rcases C141_expire d sch pd now1 s with h | ⟨_, h⟩
  · rw [h]
    exact (expire_logged sch pd now1 s).symm
  · exact h.symm

/-- **C141** ... and it damages nothing: every revision that has a tag left when expiry is done on a disk with room, and every revision of
another server, is still there, with at least those tags and no new ones; nothing appears. -/
theorem C141_expire_keeps (d : Drive) (sch : Schedule) (hs : GoodSchedule sch) (now : String → Int) (pd : String → Option Int) (s : Repo)
    (hn : Named s.files) (hlog : s.log = []) :
    (∀ u r, onDisk s.files u = some r → keptTags sch now s.scan.history r ≠ ∅ ∨ r.server ≠ "" →
      ∃ t, onDisk (expire d sch pd now s).2.files u = some { r with tags := t } ∧ keptTags sch now s.scan.history r ⊆ t ∧ t ⊆ r.tags) ∧
    (∀ u y, onDisk (expire d sch pd now s).2.files u = some y → ∃ r t, onDisk s.files u = some r ∧ y = { r with tags := t } ∧ t ⊆ r.tags) := by
  have hscan := fun r => Repo.scan_mem hn r
  obtain ⟨h, T, K, hM⟩ : ∃ h T K, Mid s.scan.history (keptTags sch now s.scan.history) (expire d sch pd now s).2.files h T K := by
    obtain ⟨s1, K, h1, h2, _⟩ := expire_ok hs now pd s hn hlog
    rcases C141_expire d sch pd now s with e | ⟨_, e | e⟩
    · rw [e, plain, h1]
      exact ⟨_, _, _, h2.mid⟩
    · rw [e]
      refine ⟨s.scan.history, fun r => r.tags, fun _ => true, hn, ?_, ?_, ?_, by simp⟩
      · rw [List.filter_eq_self.2 (by simp)]
        exact (List.map_id _).symm
      · intro u r'
        constructor
        · intro h
          have hu : r'.uuid = u := onDisk_uuid hn h
          exact ⟨(hscan r').2 (by rw [hu]; exact h), hu⟩
        · rintro ⟨h, rfl⟩
          exact (hscan r').1 h
      · intro r _; exact ⟨keptTags_sub r, fun _ h => h⟩
    · rw [h1] at e
      exact h2.log _ e
  constructor
  · intro u r hr hk
    have hu : r.uuid = u := onDisk_uuid hn hr
    have hm : r ∈ s.scan.history := (hscan r).2 (by rw [hu]; exact hr)
    have hK : K r = true := by
      by_contra hf
      obtain ⟨g1, g2⟩ := hM.gone r hm (by simpa using hf)
      exact hk.elim (fun h => h g1) (fun h => h g2)
    refine ⟨T r, (hM.disk u _).2 ⟨?_, hu⟩, (hM.sub r hm).1, (hM.sub r hm).2⟩
    rw [hM.hist]
    exact List.mem_map.2 ⟨r, List.mem_filter.2 ⟨hm, hK⟩, rfl⟩
  · intro u y hy
    obtain ⟨h1, h2⟩ := (hM.disk u y).1 hy
    rw [hM.hist] at h1
    obtain ⟨r, hr, rfl⟩ := List.mem_map.1 h1
    have hm := (List.mem_filter.1 hr).1
    refine ⟨r, T r, ?_, rfl, (hM.sub r hm).2⟩
    have := (hscan r).1 hm
    rw [show r.uuid = u from h2] at this
    exact this

/-- **C141** Removing revisions of this server needs no room: `backy rm` does the same whatever writes fail. -/
theorem C141_rm (d : Drive) (revs : List Rev) (s : Repo) (h : ∀ r ∈ revs, r.server = "") : rm d revs s = (.ok (), s.rm revs) := by
  have key : ∀ (l : List Rev) (n : Nat) (s : Repo), (∀ r ∈ l, r.server = "") → removeAll d l n s = (.ok (), n, s.rm l) := by
    intro l
    induction l with
    | nil => intro n s _; rfl
    | cons r l ih =>
      intro n s hl
      have hr : ¬ r.server ≠ "" := by simpa using hl r (by simp)
      have hf : s.remove r = s.drop r := if_neg (fun h => hr h.2)
      simp only [removeAll, remove, if_neg hr]
      rw [ih n _ (fun x hx => hl x (by simp [hx]))]
      show _ = (Except.ok (), n, (s.remove r).rm l)
      rw [hf]
  unfold rm
  rw [key revs 0 s h]

theorem expireRevs_idle {d : Drive} (hd : Never d) (tag : String) (thr : Int) : ∀ (l : List Rev) (n : Nat) (s : Repo),
    Idle (expireRevs d tag thr l n s) s
  | [], _, _ => ⟨rfl, fun _ => rfl⟩
  | r :: l, n, s => by
    simp only [expireRevs]
    split
    · exact expireRevs_idle hd tag thr l n s
    · split
      · exact ⟨rfl, fun h => by cases h⟩
      · rw [put_fails (hd n)]
        exact ⟨rfl, fun h => by cases h⟩

theorem expireTag_idle {d : Drive} (hd : Never d) (pd : String → Option Int) (now : Int) (tag : String) (a : TagSpec) (n : Nat) (s : Repo) :
    Idle (expireTag d pd now tag a n s) s := by
  unfold expireTag
  cases findRevisions ⟨s.history, pd⟩ ("tag:" ++ tag) with
  | error e => exact ⟨rfl, fun h => by cases h⟩
  | ok revs =>
    dsimp only
    split
    · exact ⟨rfl, fun _ => rfl⟩
    · exact expireRevs_idle hd _ _ _ _ _

theorem expirePhase1_idle {d : Drive} (hd : Never d) (pd : String → Option Int) (now : String → Int) : ∀ (l : List (String × TagSpec))
    (n : Nat) (s : Repo), Idle (expirePhase1 d pd now l n s) s
  | [], _, _ => ⟨rfl, fun _ => rfl⟩
  | (tag, a) :: l, n, s => by
    have h := expireTag_idle hd pd (now tag) tag a n s
    simp only [expirePhase1]
    generalize expireTag d pd (now tag) tag a n s = x at *
    obtain ⟨x1, x2, x3⟩ := x
    cases x1 with
    | error e => exact ⟨h.1, fun h => by cases h⟩
    | ok u =>
      have h2 : x3 = s := h.2 rfl
      subst h2
      exact expirePhase1_idle hd pd now l x2 x3

theorem expirePhase2_idle {d : Drive} (hd : Never d) (sch : Schedule) : ∀ (l : List Rev) (n : Nat) (s : Repo),
    Idle (expirePhase2 d sch l n s) s
  | [], _, _ => ⟨rfl, fun _ => rfl⟩
  | r :: l, n, s => by
    simp only [expirePhase2]
    split
    · rw [put_fails (hd n)]
      exact ⟨rfl, fun h => by cases h⟩
    · exact expirePhase2_idle hd sch l n s

theorem foldl_remove_ne {u : String} : ∀ (l : List Rev) (s : Repo), (∀ r ∈ l, r.uuid ≠ u) →
    onDisk (l.foldl (fun s r => s.remove r) s).files u = onDisk s.files u
  | [], _, _ => rfl
  | x :: l, s, h => by
    rw [List.foldl_cons, foldl_remove_ne l _ (fun r hr => h r (by simp [hr]))]
    exact remove_files_ne (fun e => h x (by simp) e.symm) false

/-- **C142, false of the code** On a full disk expiry frees nothing as long as there is anything to do: if a single revision has a tag that
is due, the expiry fails with the first write and every revision stays, also those without any tag left. -/
theorem C142_false_full (d : Drive) (hd : Never d) (sch : Schedule) (hs : GoodSchedule sch) (pd : String → Option Int) (now : String → Int)
    (s : Repo) (hn : Named s.files) (hlog : s.log = []) (u : String) (r : Rev) (hr : onDisk s.files u = some r)
    (hdue : keptTags sch now s.scan.history r ≠ r.tags) :
    (expire d sch pd now s).1 = .error .os ∧ (expire d sch pd now s).2.files = s.files := by
  have h0 : Logged s.files s.scan := .inl rfl
  have h1 := expirePhase1_logged pd now sch s.scan h0
  have c1 := expirePhase1_cut d pd now sch 0 s.scan h0
  have i1 := expirePhase1_idle hd pd now sch 0 s.scan
  obtain ⟨s1, K, hok, -, -⟩ := expire_ok hs now pd s hn hlog
  have hp := expire_phases sch pd now s
  have hC := (C27_expiry_exact sch hs now pd s hn hlog).1
  have hpf : (plain (sch.expire pd now s)).2.files = (sch.expire pd now s).2.files := rfl
  have hp1 : (plain (sch.expire pd now s)).1 = .ok () := by rw [hok]; rfl
  rw [← hpf] at hC
  rw [hp] at hC hp1
  unfold expire
  generalize expirePhase1 d pd now sch 0 s.scan = x at *
  generalize Repo.expirePhase1 pd now sch s.scan = y at *
  obtain ⟨y1, y2⟩ := y
  cases y1 with
  | error e => cases hp1
  | ok w =>
    obtain ⟨x1, x2, x3⟩ := x
    rcases c1 with ⟨m, e⟩ | ⟨e1, _⟩
    · cases e
      have hy : y2 = s.scan := i1.2 rfl
      subst hy
      have c2 := expirePhase2_cut d sch s.scan.history x2 s.scan h0
      have i2 := expirePhase2_idle hd sch s.scan.history x2 s.scan
      dsimp only at hC ⊢
      generalize expirePhase2 d sch s.scan.history x2 s.scan = z at *
      obtain ⟨z1, z2, z3⟩ := z
      rcases c2 with ⟨k, e⟩ | ⟨e1, _⟩
      · exfalso
        cases e
        have hz : s.scan.history.foldl (former sch) s.scan = s.scan := i2.2 rfl
        rw [hz] at hC
        have hu : r.uuid = u := onDisk_uuid hn hr
        have hm : r ∈ s.scan.history := (Repo.scan_mem hn r).2 (by rw [hu]; exact hr)
        have hne : r.tags ≠ ∅ := by
          intro he
          have := keptTags_sub (sch := sch) (now := now) (H := s.scan.history) r
          rw [he] at this
          exact hdue (by rw [he]; exact Finset.subset_empty.1 this)
        have hfin : onDisk ((s.scan.history.filter (fun r => decide (r.tags = ∅))).foldl (fun s r => s.remove r) s.scan).files u = some r := by
          rw [foldl_remove_ne]
          · exact hr
          · intro x hx hxu
            obtain ⟨hx1, hx2⟩ := List.mem_filter.1 hx
            have := (Repo.scan_mem hn x).1 hx1
            rw [hxu, hr] at this
            cases this
            exact hne (by simpa using hx2)
        obtain ⟨r0, g1, g2, _⟩ := (hC u r).1 hfin
        rw [hr] at g1
        cases g1
        exact hdue (congrArg Rev.tags g2).symm
      · dsimp only at e1
        subst e1
        exact ⟨rfl, i2.1⟩
    · dsimp only at e1
      subst e1
      exact ⟨rfl, i1.1⟩

theorem rm_gone : ∀ (l : List Rev) (s : Repo) (u : String), (∀ r ∈ l, r.server = "") →
    onDisk (s.rm l).files u = if u ∈ l.map Rev.uuid then none else onDisk s.files u
  | [], _, _, _ => rfl
  | x :: l, s, u, h => by
    have hf : s.remove x = s.drop x := if_neg (fun hx => hx.2 (h x (by simp)))
    show onDisk ((s.remove x).rm l).files u = _
    rw [rm_gone l _ u (fun r hr => h r (by simp [hr])), hf, drop_files]
    by_cases h1 : u ∈ l.map Rev.uuid
    · rw [if_pos h1, if_pos (by simp only [List.map_cons, List.mem_cons]; exact .inr h1)]
    · rw [if_neg h1]
      by_cases h2 : u = x.uuid
      · rw [if_pos h2, if_pos (by simp [h2])]
      · rw [if_neg h2, if_neg (by simp only [List.map_cons, List.mem_cons, not_or]; exact ⟨h2, h1⟩)]

/-- **C142** What holds: although no write succeeds, `backy rm` of revisions of this server removes exactly those, and the garbage
collection after it, which writes nothing, removes every chunk that only they referenced. -/
theorem C142_rm_partial (d : Drive) (revs : List Rev) (s : Verif.Rbd.Src) (hloc : ∀ r ∈ revs, r.server = "") :
    (rm d revs s.repo).1 = .ok () ∧
    (∀ u, onDisk (rm d revs s.repo).2.files u = if u ∈ revs.map Rev.uuid then none else onDisk s.repo.files u) ∧
    ((Verif.Rbd.Src.gc { s with repo := (rm d revs s.repo).2 }).1 = .ok () →
      ∀ h, ¬ Verif.Rbd.Referenced { s with repo := (rm d revs s.repo).2 } h →
        (Verif.Rbd.Src.gc { s with repo := (rm d revs s.repo).2 }).2.w.chunks.get? h = none) := by
  have hrm := C141_rm d revs s.repo hloc
  refine ⟨by rw [hrm], fun u => ?_, fun hok => (Verif.Rbd.C08_gc_exact _ hok).2.1⟩
  rw [hrm]
  exact rm_gone revs s.repo u hloc

/-! ### Concrete cases -/

/-- The third write fails. -/
def exThird : Drive := fun n => if n = 2 then .failed else .done

/-- Nothing can be written. -/
def exNone : Drive := fun _ => .failed

/-- Test (C141): the expiry of `exExpire` stops before the third write; "a" has lost its tag but is still there. -/
example : (match (expire exThird exSchedule (fun _ => none) (fun _ => seconds (105 * DAY)) exExpire).1 with
      | .error e => decide (e = .os)
      | .ok _ => false) = true ∧
    ((expire exThird exSchedule (fun _ => none) (fun _ => seconds (105 * DAY)) exExpire).2.files.map (fun e => (e.1, e.2.rev.tags))) =
      [("a", ∅), ("b", {"manual:x"}), ("c", {"daily", "old"}), ("d", {"daily"}), ("e", {"daily", "weekly"})] := by decide +kernel

example := C141_expire_again exThird exSchedule exSchedule_good (fun _ => seconds (105 * DAY)) (fun _ => seconds (106 * DAY)) (fun _ => by decide)
  (fun _ => none) exExpire exExpire_named rfl (by decide +kernel) "a"

theorem exExpire_b : keptTags exSchedule (fun _ => seconds (105 * DAY)) exExpire.scan.history exExpire.files[1].2.rev = {"manual:x"} := by
  obtain ⟨r, h1, h2, _⟩ := ((C27_expiry_exact exSchedule exSchedule_good (fun _ => seconds (105 * DAY)) (fun _ => none) exExpire exExpire_named
    rfl).1 "b" { exExpire.files[1].2.rev with tags := {"manual:x"} }).1 (by decide +kernel)
  have hr : onDisk exExpire.files "b" = some exExpire.files[1].2.rev := by decide +kernel
  rw [hr] at h1
  cases h1
  exact (congrArg Rev.tags h2).symm

theorem exExpire_a : keptTags exSchedule (fun _ => seconds (105 * DAY)) exExpire.scan.history exExpire.files[0].2.rev ≠
    exExpire.files[0].2.rev.tags := by
  intro he
  have h := ((C27_expiry_exact exSchedule exSchedule_good (fun _ => seconds (105 * DAY)) (fun _ => none) exExpire exExpire_named
    rfl).1 "a" { exExpire.files[0].2.rev with
      tags := keptTags exSchedule (fun _ => seconds (105 * DAY)) exExpire.scan.history exExpire.files[0].2.rev }).2
    ⟨exExpire.files[0].2.rev, by decide +kernel, rfl, by rw [he]; decide +kernel⟩
  have hn : onDisk (exSchedule.expire (fun _ => none) (fun _ => seconds (105 * DAY)) exExpire).2.files "a" = none := by decide +kernel
  rw [hn] at h
  cases h

example := (C141_expire_keeps exThird exSchedule exSchedule_good (fun _ => seconds (105 * DAY)) (fun _ => none) exExpire exExpire_named rfl).1
  "b" exExpire.files[1].2.rev (by decide +kernel) (.inl (by rw [exExpire_b]; decide))

/-- Test (C142): "a" is due, and nothing is removed; by hand it can be removed. -/
example : (expire exNone exSchedule (fun _ => none) (fun _ => seconds (105 * DAY)) exExpire).2.files = exExpire.files :=
  (C142_false_full exNone (fun _ => by simp [exNone]) exSchedule exSchedule_good (fun _ => none) (fun _ => seconds (105 * DAY)) exExpire
    exExpire_named rfl "a" exExpire.files[0].2.rev (by decide +kernel) exExpire_a).2

example : onDisk (rm exNone [exExpire.files[0].2.rev] exExpire).2.files "a" = none := by
  rw [C141_rm exNone [exExpire.files[0].2.rev] exExpire (by simp [exExpire, mkRev])]
  decide +kernel

end Verif.FullDisk
