import Verif.Model.Listing
import Verif.Props.Push
import Verif.Props.RevMeta
import Verif.Props.Defaults
/-!
# C121: what `backy rev-parse` and `backy log` print
-/
namespace Verif.Listing
open Verif Verif.Repo Verif.Repo.Spec Verif.Cli Verif.Sync

/-! ## Specification -/

/-- The repository as the program finds it: read from the directory. -/
structure Opened (j : Job) (files : Dict String RevFile) : Prop where
  named : Named files
  read : j.repo.history = ({ files, history := [] } : Repo).scan.history

/-- Ids as a revision specifier: `id1,id2,…`. -/
def joined : List String → String
  | [] => ""
  | [u] => u
  | u :: v :: rest => u ++ "," ++ joined (v :: rest)

/-- `iter` lists a set: each element once. -/
def Lists (iter : Finset String → List String) : Prop := ∀ s, (iter s).Nodup ∧ (iter s).toFinset = s

/-- What a row must say of a revision. -/
structure Shows (row : Row) (r : Rev) : Prop where
  time : row.ts = r.ts
  id : row.uuid = r.uuid
  trust : row.trust = r.trust.value
  server : row.server = r.server
  size : row.size = match r.stats.get? "bytes_written" with | some n => n | none => 0
  duration : ∀ d, row.duration = some d ↔ (r.stats.get? "duration" = some d ∧ d ≠ 0)
  once : row.tags.Nodup
  present : ∀ t, ((Mark.plain, t) ∈ row.tags ∨ (Mark.added, t) ∈ row.tags) ↔ t ∈ r.tags
  added : ∀ t, (Mark.added, t) ∈ row.tags ↔ (r.server ≠ "" ∧ t ∈ r.tags ∧ t ∉ r.origTags)
  removed : ∀ t, (Mark.removed, t) ∈ row.tags ↔ (r.server ≠ "" ∧ t ∉ r.tags ∧ t ∈ r.origTags)
  marked : row.marked = true ↔ (r.server ≠ "" ∧ r.tags ≠ r.origTags)

/-! ## Proofs -/

theorem Opened.mem {j : Job} {files : Dict String RevFile} (h : Opened j files) (r : Rev) :
    r ∈ j.repo.history ↔ onDisk files r.uuid = some r := by
  rw [h.read]
  exact Repo.scan_mem (s := { files, history := [] }) h.named r

theorem Opened.nodup {j : Job} {files : Dict String RevFile} (h : Opened j files) : (j.repo.history.map Rev.uuid).Nodup := by
  rw [h.read]; exact Repo.scan_nodup _

theorem selected {j : Job} {files : Dict String RevFile} (h : Opened j files) {pd : String → Option Int} {spec : String} {l : List Rev}
    (hl : findRevisions ⟨j.repo.history, pd⟩ spec = .ok l) :
    (∀ r ∈ l, onDisk files r.uuid = some r) ∧ (l.map Rev.uuid).Nodup := by
  obtain ⟨h1, h2⟩ := C37_results_from_history _ (nodup_of_map_uuid h.nodup) _ _ hl
  refine ⟨fun r hr => (h.mem r).1 (h1 r hr), ?_⟩
  refine List.Nodup.map_on ?_ h2
  intro a ha b hb hab
  have e1 := (h.mem a).1 (h1 a ha)
  have e2 := (h.mem b).1 (h1 b hb)
  rw [hab, e2] at e1
  exact (Option.some.inj e1).symm

/-- **C121** `rev-parse` prints the names of metadata files that exist and hold the selected revisions, in the order of the selection, no
name twice. -/
theorem C121_files (pd : String → Option Int) (spec : String) (j : Job) (files : Dict String RevFile) (h : Opened j files)
    (l : List Rev) (hl : findRevisions ⟨j.repo.history, pd⟩ spec = .ok l) :
    ∃ out, revParse pd spec false j = .ok out ∧ out.length = l.length ∧ out.Nodup ∧
      ∀ (i : Nat) r line, l[i]? = some r → out[i]? = some line →
        line = j.dir ++ "/" ++ (r.uuid ++ ".rev") ∧ files.get? r.uuid = some ⟨false, r⟩ := by
  obtain ⟨h1, h2⟩ := selected h hl
  refine ⟨l.map (infoFilename j.dir), by simp [revParse, hl], by simp, ?_, ?_⟩
  · have : l.map (infoFilename j.dir) = (l.map Rev.uuid).map (fun u => j.dir ++ "/" ++ (u ++ ".rev")) := by
      rw [List.map_map]; rfl
    rw [this]
    refine List.Nodup.map_on ?_ h2
    intro a _ b _ hab
    rw [← String.toList_inj] at hab ⊢
    simpa [String.toList_append] using hab
  · intro i r line hi ho
    rw [List.getElem?_map, hi] at ho
    cases ho
    exact ⟨rfl, onDisk_eq_some.1 (h1 r (List.mem_of_getElem? hi))⟩

/-- The expression `id1,id2,…`. -/
def listExpr : String → List String → Expr .disj
  | u, [] => .all (.one (.single (.atom u)))
  | u, v :: rest => .or (.one (.single (.atom u))) (listExpr v rest)

theorem listExpr_text : ∀ (u : String) (l : List String), String.ofList ((listExpr u l).text []) = joined (u :: l)
  | u, [] => by
    rw [← String.toList_inj, String.toList_ofList]
    simp [listExpr, Expr.text, Expr.words, joined]
  | u, v :: rest => by
    have ih := listExpr_text v rest
    rw [← String.toList_inj, String.toList_ofList] at ih ⊢
    have e : (listExpr u (v :: rest)).text [] = u.toList ++ ',' :: (listExpr v rest).text [] := by
      simp [listExpr, Expr.text, Expr.words]
    rw [e, ih, joined]
    simp [String.toList_append]

theorem listExpr_atoms : ∀ (u : String) (l : List String), (∀ v ∈ u :: l, PlainId v) → (listExpr u l).Atoms PlainWord
  | u, [], h => (h u (by simp)).plain
  | u, v :: rest, h => ⟨(h u (by simp)).plain, listExpr_atoms v rest (fun w hw => h w (by simp at hw ⊢; tauto))⟩

theorem eraseDups_nodup {l : List Rev} (h : l.Nodup) : l.eraseDups = l := by
  induction l with
  | nil => rfl
  | cons a t ih =>
    obtain ⟨h1, h2⟩ := List.nodup_cons.1 h
    rw [List.eraseDups_cons]
    have : t.filter (fun b => !b == a) = t := by
      rw [List.filter_eq_self]
      intro b hb
      simp only [Bool.not_eq_true', beq_eq_false_iff_ne, ne_eq]
      rintro rfl; exact h1 hb
    rw [this, ih h2]

theorem select_id {H : List Rev} (pd : String → Option Int) (hH : (H.map Rev.uuid).Nodup) {q : Rev} (hq : q ∈ H) (h : PlainId q.uuid) :
    (semOf ⟨H, pd⟩).select q.uuid = some [q] := by
  have hk := h.notKeyword
  simp only [List.mem_cons, List.not_mem_nil, or_false, not_or] at hk
  rw [C37_single_selector ⟨H, pd⟩ q.uuid (h.startsWith (by decide)) (h.startsWith (by decide)) (h.startsWith (by decide))
    (by simp only [List.mem_cons, List.not_mem_nil, or_false, not_or]; exact ⟨hk.1, hk.2.1, hk.2.2.1, hk.2.2.2.1⟩)
    (by rw [strip_trimmed h.plain.trimmed, String.ofList_toList, ← isFirstLastCall_iff, h.noCall]; simp)]
  rw [C36_id ⟨H, pd⟩ q hq hH h.plain.trimmed h.nonempty h.notNumber]
  rfl

theorem listExpr_meaning {H : List Rev} (pd : String → Option Int) (hH : (H.map Rev.uuid).Nodup) :
    ∀ (r : Rev) (l : List Rev), (∀ q ∈ r :: l, q ∈ H ∧ PlainId q.uuid) → (r :: l).Nodup →
      ((listExpr r.uuid (l.map Rev.uuid)).meaning (semOf ⟨H, pd⟩)).revs = some (r :: l)
  | r, [], h, _ => select_id pd hH (h r (by simp)).1 (h r (by simp)).2
  | r, q :: l, h, hn => by
    have ih := listExpr_meaning pd hH q l (fun x hx => h x (List.mem_cons_of_mem _ hx)) (List.nodup_cons.1 hn).2
    have hs := select_id pd hH (h r (by simp)).1 (h r (by simp)).2
    have e : ((listExpr r.uuid ((q :: l).map Rev.uuid)).meaning (semOf ⟨H, pd⟩)).revs =
        ((semOf ⟨H, pd⟩).select r.uuid).bind (fun x =>
          ((listExpr q.uuid (l.map Rev.uuid)).meaning (semOf ⟨H, pd⟩)).revs.map (fun y => Spec.union x y)) := rfl
    rw [e, hs, ih]
    simp only [Option.bind_some, Option.map_some, Option.some.injEq]
    exact eraseDups_nodup hn

/-- **C121** The ids printed by `rev-parse --uuid`, joined by commas, are a specifier for the same revisions in the same order, for every later
command (the directory is `files'` by then) as long as those revisions are still there: as they are then. -/
theorem C121_ids (pd pd' : String → Option Int) (spec : String) (j j' : Job) (files files' : Dict String RevFile)
    (h : Opened j files) (h' : Opened j' files') (l : List Rev) (hl : findRevisions ⟨j.repo.history, pd⟩ spec = .ok l) (hne : l ≠ [])
    (hid : ∀ r ∈ l, PlainId r.uuid) (now : String → Rev) (hnow : ∀ r ∈ l, onDisk files' r.uuid = some (now r.uuid)) :
    ∃ out, revParse pd spec true j = .ok out ∧ out = l.map Rev.uuid ∧
      findRevisions ⟨j'.repo.history, pd'⟩ (joined out) = .ok (out.map now) := by
  obtain ⟨h1, h2⟩ := selected h hl
  refine ⟨l.map Rev.uuid, by simp [revParse, hl], rfl, ?_⟩
  have hu : ∀ r ∈ l, (now r.uuid).uuid = r.uuid := fun r hr => Named.uuid h'.named (hnow r hr)
  have hm : ∀ r ∈ l, now r.uuid ∈ j'.repo.history := by
    intro r hr
    rw [h'.mem, hu r hr]
    exact hnow r hr
  obtain ⟨r, t, rfl⟩ : ∃ r t, l = r :: t := by
    cases l with
    | nil => exact absurd rfl hne
    | cons r t => exact ⟨r, t, rfl⟩
  have hnd : ((r :: t).map (fun q => now q.uuid)).Nodup := by
    refine List.Nodup.map_on ?_ (List.Nodup.of_map _ h2)
    intro a ha b hb hab
    have : a.uuid = b.uuid := by rw [← hu a ha, ← hu b hb, hab]
    have e1 := h1 a ha
    rw [this, h1 b hb] at e1
    exact (Option.some.inj e1).symm
  have hids : (t.map (fun q => now q.uuid)).map Rev.uuid = t.map Rev.uuid := by
    rw [List.map_map]
    exact List.map_congr_left (fun q hq => hu q (List.mem_cons_of_mem _ hq))
  have hmean := listExpr_meaning pd' h'.nodup (now r.uuid) (t.map (fun q : Rev => now q.uuid))
    (by intro q hq
        rw [← List.map_cons (f := fun q : Rev => now q.uuid)] at hq
        obtain ⟨x, hx, rfl⟩ := List.mem_map.1 hq
        refine ⟨hm x hx, ?_⟩
        rw [hu x hx]; exact hid x hx) hnd
  rw [hids, hu r (by simp)] at hmean
  have hat := listExpr_atoms r.uuid (t.map Rev.uuid)
    (by intro v hv
        rw [← List.map_cons] at hv
        obtain ⟨x, hx, rfl⟩ := List.mem_map.1 hv
        exact hid x hx)
  have hex := C37_expressions ⟨j'.repo.history, pd'⟩ _ hat [] (by intro c hc; simp at hc)
  rw [listExpr_text, hmean] at hex
  rw [List.map_cons, List.map_cons]
  have e : (t.map Rev.uuid).map now = t.map (fun q => now q.uuid) := by rw [List.map_map]; rfl
  rw [e]
  cases hf : findRevisions ⟨j'.repo.history, pd'⟩ (joined (r.uuid :: t.map Rev.uuid)) with
  | error e => rw [hf] at hex; cases hex
  | ok x => rw [hf] at hex; cases hex; rfl

/-- **C121** Reading the output of `log --json` gives exactly the selected revisions, in order. -/
theorem C121_json (pd : String → Option Int) (iso : Int → String) (fromIso : String → Option (Bool × Int))
    (hiso : ∀ t, fromIso (iso t) = some (true, t)) (iter : Finset String → List String) (hi : Lists iter) (spec : String) (j : Job) :
    match findRevisions ⟨j.repo.history, pd⟩ spec with
    | .ok l => ∃ out, logJson pd iso iter spec j = .ok out ∧ out.map (Rev.fromDict fromIso) = l.map Except.ok
    | .error e => logJson pd iso iter spec j = .error e := by
  unfold logJson
  cases hf : findRevisions ⟨j.repo.history, pd⟩ spec with
  | error e => rfl
  | ok l =>
    refine ⟨_, rfl, ?_⟩
    rw [List.map_map]
    refine List.map_congr_left ?_
    intro r _
    exact C34_text_time fromIso r _ _ _ (hi _).2 (hi _).2 _ (hiso _)

theorem logLoop_spec (iter : Finset String → List String) : ∀ (l : List Rev) (n : Nat) (rows : List Row),
    logLoop iter l n rows = (n + (l.map (fun r => (r.stats.get? "bytes_written").getD 0)).sum, rows ++ l.map (logRow iter))
  | [], n, rows => by simp [logLoop]
  | r :: l, n, rows => by
    rw [logLoop, logLoop_spec iter l]
    simp [Nat.add_assoc]

theorem mem_iter {iter : Finset String → List String} (hi : Lists iter) (s : Finset String) (t : String) : t ∈ iter s ↔ t ∈ s := by
  rw [← List.mem_toFinset, (hi s).2]

theorem logRow_shows {iter : Finset String → List String} (hi : Lists iter) (r : Rev) : Shows (logRow iter r) r := by
  have hd : ∀ d, durationCell r = some d ↔ (r.stats.get? "duration" = some d ∧ d ≠ 0) := by
    intro d
    unfold durationCell
    cases hq : r.stats.get? "duration" with
    | none => simp
    | some n =>
      dsimp only
      by_cases hn : n = 0
      · rw [if_pos hn]; constructor
        · intro h; cases h
        · rintro ⟨h, h2⟩; cases h; exact absurd hn h2
      · rw [if_neg hn]; constructor
        · intro h; cases h; exact ⟨rfl, hn⟩
        · rintro ⟨h, _⟩; exact h
  have hp : r.pending = true ↔ (r.server ≠ "" ∧ r.tags ≠ r.origTags) := by simp [Rev.pending]
  by_cases h : r.pending = true
  · obtain ⟨hs, hne⟩ := hp.1 h
    have e : (logRow iter r).tags = (iter (r.tags \ r.origTags)).map (fun t => (Mark.added, t)) ++
      ((iter (r.origTags \ r.tags)).map (fun t => (Mark.removed, t)) ++
        (iter (r.origTags ∩ r.tags)).map (fun t => (Mark.plain, t))) := by
      simp [logRow, tagCell, h]
    refine ⟨rfl, rfl, rfl, rfl, ?_, hd, ?_, ?_, ?_, ?_, hp⟩
    · simp only [logRow]; cases r.stats.get? "bytes_written" <;> rfl
    · rw [e]
      simp only [List.nodup_append, List.mem_append, List.mem_map]
      refine ⟨(hi _).1.map_on (by intro a _ b _ hab; cases hab; rfl), ⟨(hi _).1.map_on (by intro a _ b _ hab; cases hab; rfl),
        (hi _).1.map_on (by intro a _ b _ hab; cases hab; rfl), ?_⟩, ?_⟩
      · rintro _ ⟨a, _, rfl⟩ _ ⟨b, _, rfl⟩ hab; cases hab
      · rintro _ ⟨a, _, rfl⟩ _ (⟨b, _, rfl⟩ | ⟨b, _, rfl⟩) hab <;> cases hab
    · intro t; rw [e]
      simp only [List.mem_append, List.mem_map, Prod.mk.injEq, reduceCtorEq, false_and, and_false, exists_false, true_and, exists_eq_right,
        mem_iter hi, Finset.mem_sdiff, Finset.mem_inter, false_or, or_false]
      tauto
    · intro t; rw [e]
      simp only [List.mem_append, List.mem_map, Prod.mk.injEq, reduceCtorEq, false_and, and_false, exists_false, true_and, exists_eq_right,
        mem_iter hi, Finset.mem_sdiff, Finset.mem_inter, false_or, or_false]
      tauto
    · intro t; rw [e]
      simp only [List.mem_append, List.mem_map, Prod.mk.injEq, reduceCtorEq, false_and, and_false, exists_false, true_and, exists_eq_right,
        mem_iter hi, Finset.mem_sdiff, Finset.mem_inter, false_or, or_false]
      tauto
  · have e : (logRow iter r).tags = (iter r.tags).map (fun t => (Mark.plain, t)) := by
      simp [logRow, tagCell, h]
    have hq : r.server ≠ "" → r.tags = r.origTags := by
      intro hs
      by_contra hne
      exact h (hp.2 ⟨hs, hne⟩)
    refine ⟨rfl, rfl, rfl, rfl, ?_, hd, ?_, ?_, ?_, ?_, hp⟩
    · simp only [logRow]; cases r.stats.get? "bytes_written" <;> rfl
    · rw [e]; exact (hi _).1.map_on (by intro a _ b _ hab; cases hab; rfl)
    · intro t; rw [e]; simp [mem_iter hi]
    · intro t; rw [e]
      simp only [List.mem_map, Prod.mk.injEq, reduceCtorEq, false_and, and_false, exists_false, false_iff]
      rintro ⟨h1, h2, h3⟩; rw [hq h1] at h2; exact h3 h2
    · intro t; rw [e]
      simp only [List.mem_map, Prod.mk.injEq, reduceCtorEq, false_and, and_false, exists_false, false_iff]
      rintro ⟨h1, h2, h3⟩; rw [hq h1] at h2; exact h2 h3

/-- **C121** The table of `log` has a row for each selected revision, in order, which shows what is on record, pending tag changes included; the
line below gives their number and the sum of the sizes. -/
theorem C121_table (pd : String → Option Int) (iter : Finset String → List String) (hi : Lists iter) (spec : String) (j : Job) :
    match findRevisions ⟨j.repo.history, pd⟩ spec with
    | .ok l => ∃ out, logTable pd iter spec j = .ok out ∧ List.Forall₂ Shows out.rows l ∧ out.count = out.rows.length ∧
        out.bytes = (out.rows.map Row.size).sum
    | .error e => logTable pd iter spec j = .error e := by
  unfold logTable
  cases hf : findRevisions ⟨j.repo.history, pd⟩ spec with
  | error e => rfl
  | ok l =>
    refine ⟨_, rfl, ?_, ?_, ?_⟩
    · simp only [logLoop_spec, List.nil_append]
      rw [List.forall₂_map_left_iff, List.forall₂_same]
      exact fun r _ => logRow_shows hi r
    · simp [logLoop_spec]
    · simp only [logLoop_spec, List.nil_append, List.map_map, Nat.zero_add]; rfl

theorem printLoop {α : Type} (f : Job → Except PyErr α) : ∀ (jobs : List Job) (out : List α),
    (∃ l, callLoop (printing f) jobs 0 out = (.ok 0, out ++ l) ∧ List.Forall₂ (fun j a => f j = .ok a) jobs l) ∨
    (∃ l e done j rest, callLoop (printing f) jobs 0 out = (.error e, out ++ l) ∧ jobs = done ++ j :: rest ∧
      List.Forall₂ (fun j a => f j = .ok a) done l ∧ f j = .error e)
  | [], out => .inl ⟨[], by simp [callLoop], .nil⟩
  | j :: jobs, out => by
    cases hj : f j with
    | error e => exact .inr ⟨[], e, [], j, jobs, by simp [callLoop, printing, hj], rfl, .nil, hj⟩
    | ok a =>
      have hc : callLoop (printing f) (j :: jobs) 0 out = callLoop (printing f) jobs 0 (out ++ [a]) := by
        simp [callLoop, printing, hj, Ret.code]
      rw [hc]
      rcases printLoop f jobs (out ++ [a]) with ⟨l, h1, h2⟩ | ⟨l, e, done, k, rest, h1, h2, h3, h4⟩
      · exact .inl ⟨a :: l, by rw [h1]; simp, .cons hj h2⟩
      · exact .inr ⟨a :: l, e, j :: done, k, rest, by rw [h1]; simp, by rw [h2]; rfl, .cons hj h3, h4⟩

/-- **C121** A listing of several jobs: exit code 0 means that all of them were listed, in order; otherwise it is 1, and those before the one that
failed were listed. -/
theorem C121_jobs {α : Type} (f : Job → Except PyErr α) (jobs : List Job) :
    ((mainListing f (.ok jobs)).1 = 0 ∧ List.Forall₂ (fun j a => f j = .ok a) jobs (mainListing f (.ok jobs)).2) ∨
    ((mainListing f (.ok jobs)).1 = 1 ∧ ∃ done j rest e, jobs = done ++ j :: rest ∧
      List.Forall₂ (fun j a => f j = .ok a) done (mainListing f (.ok jobs)).2 ∧ f j = .error e) := by
  unfold mainListing call
  rcases printLoop f jobs [] with ⟨l, h1, h2⟩ | ⟨l, e, done, k, rest, h1, h2, h3, h4⟩
  · left; simp only [h1, List.nil_append]; exact ⟨trivial, h2⟩
  · right; simp only [h1, List.nil_append]; exact ⟨trivial, done, k, rest, e, h2, h3, h4⟩

/-! ## Examples -/

/-- A repository with a revision of another server whose tags were changed here. -/
def exFiles : Dict String RevFile :=
  [("aXk", ⟨false, { mkRev "aXk" 10 {"daily"} with stats := [("bytes_written", 5), ("duration", 7)] }⟩),
   ("bYm", ⟨false, { mkRev "bYm" 20 {"weekly", "manual:keep"} "srv" with origTags := {"weekly", "daily"}, stats := [("bytes_written", 3)] }⟩),
   ("cZn", ⟨false, mkRev "cZn" 30 {"daily"}⟩)]

def exJob : Job := ⟨"/srv/backy/vm", ({ files := exFiles, history := [] } : Repo).scan⟩

theorem exJob_opened : Opened exJob exFiles where
  named := ⟨by decide +kernel, by
    intro n f h _
    have : ∀ e ∈ exFiles, e.1 = e.2.rev.uuid := by decide +kernel
    exact this _ h⟩
  read := rfl

/-- Enumerate a set of the names that occur. -/
def exIter (s : Finset String) : List String := ["daily", "manual:keep", "weekly"].filter (fun t => decide (t ∈ s))

theorem exSel : findRevisions ⟨exJob.repo.history, fun _ => none⟩ "reverse(not(0))" =
    .ok (exJob.repo.history.dropLast.reverse) := by decide +kernel

example : revParse (fun _ => none) "reverse(not(0))" false exJob = .ok ["/srv/backy/vm/bYm.rev", "/srv/backy/vm/aXk.rev"] ∧
    revParse (fun _ => none) "reverse(not(0))" true exJob = .ok ["bYm", "aXk"] ∧
    revParse (fun _ => none) "7" true exJob = .error .key := by decide +kernel

example := C121_files (fun _ => none) "reverse(not(0))" exJob exFiles exJob_opened _ exSel

example : logTable (fun _ => none) exIter "reverse(not(0))" exJob = .ok
    ⟨[⟨20, "bYm", 3, none, [(.added, "manual:keep"), (.removed, "daily"), (.plain, "weekly")], "trusted", "srv", true⟩,
      ⟨10, "aXk", 5, some 7, [(.plain, "daily")], "trusted", "", false⟩], 2, 8⟩ := by decide +kernel

theorem exPlainId {u : String} (h : u ∈ ["aXk", "bYm"]) : PlainId u := by
  simp only [List.mem_cons, List.not_mem_nil, or_false] at h
  rcases h with rfl | rfl
  · exact ⟨by decide, by decide +kernel, by decide +kernel, by decide⟩
  · exact ⟨by decide, by decide +kernel, by decide +kernel, by decide⟩

/-- Later the newest revision is gone, the ids still select the two others. -/
example : ∃ out, revParse (fun _ => none) "reverse(not(0))" true exJob = .ok out ∧ out = (exJob.repo.history.dropLast.reverse).map Rev.uuid ∧
    findRevisions ⟨({ files := exFiles.take 2, history := [] } : Repo).scan.history, fun _ => none⟩ (joined out) =
      .ok (out.map (fun u => ((onDisk exFiles u).getD (mkRev "" 0 ∅)))) :=
  C121_ids (fun _ => none) (fun _ => none) "reverse(not(0))" exJob ⟨"/srv/backy/vm", ({ files := exFiles.take 2, history := [] } : Repo).scan⟩
    exFiles (exFiles.take 2) exJob_opened
    ⟨⟨by decide +kernel, by
      intro n f h _
      have : ∀ e ∈ exFiles.take 2, e.1 = e.2.rev.uuid := by decide +kernel
      exact this _ h⟩, rfl⟩ _ exSel (by decide +kernel)
    (by
      have : ∀ r ∈ exJob.repo.history.dropLast.reverse, r.uuid ∈ ["aXk", "bYm"] := by decide +kernel
      exact fun r hr => exPlainId (this r hr))
    _ (by decide +kernel)

theorem lists_toList : Lists (fun s => s.toList) := fun s => ⟨s.nodup_toList, s.toList_toFinset⟩

example := C121_table (fun _ => none) (fun s => s.toList) lists_toList "reverse(not(0))" exJob

/-- Some way to write times as text and read them. -/
def exIso (t : Int) : String := String.ofList (List.replicate t.toNat '+' ++ List.replicate (-t).toNat '-')

def exFromIso (s : String) : Option (Bool × Int) := some (true, (s.toList.count '+' : Int) - (s.toList.count '-' : Int))

example := C121_json (fun _ => none) exIso exFromIso
  (by intro t
      simp only [exFromIso, exIso, String.toList_ofList, List.count_append, List.count_replicate]
      have h1 : ('-' == '+') = false := by decide
      have h2 : ('+' == '-') = false := by decide
      simp only [h1, h2, beq_self_eq_true, if_true, Bool.false_eq_true, if_false, Option.some.injEq, Prod.mk.injEq, true_and]
      omega)
  (fun s => s.toList) lists_toList "reverse(not(0))" exJob

example := C121_jobs (revParse (fun _ => none) "1" true) [exJob, ⟨"/srv/backy/new", ⟨[], [], []⟩⟩, exJob]

/-- The second of three jobs has no revision 1: the first is listed. -/
example : mainListing (revParse (fun _ => none) "1" true) (.ok [exJob, ⟨"/srv/backy/new", ⟨[], [], []⟩⟩, exJob]) = (1, [["bYm"]]) ∧
    mainListing (revParse (fun _ => none) "1" true) (.ok [exJob, exJob]) = (0, [["bYm"], ["bYm"]]) := by decide +kernel

/-- **C121** Without `-r` both commands list every revision of the repository, oldest first. -/
theorem C121_all (pd : String → Option Int) (iter : Finset String → List String) (j : Job) (files : Dict String RevFile) (h : Opened j files) :
    (∃ spec, Commands.Sub.default .revParse = some spec ∧ revParse pd spec true j = .ok (j.repo.history.map Rev.uuid)) ∧
    (∃ spec, Commands.Sub.default .log = some spec ∧ ∃ t, logTable pd iter spec j = .ok t ∧ t.rows.map Row.uuid = j.repo.history.map Rev.uuid) ∧
    (∀ r, r ∈ j.repo.history ↔ onDisk files r.uuid = some r) ∧
    j.repo.history.Pairwise (fun a b => a.ts ≤ b.ts) := by
  refine ⟨⟨"all", rfl, ?_⟩, ⟨"all", rfl, ?_⟩, h.mem, ?_⟩
  · unfold revParse
    rw [Commands.find_all]
    rfl
  · unfold logTable
    rw [Commands.find_all]
    refine ⟨_, rfl, ?_⟩
    have := logLoop_spec iter j.repo.history 0 []
    rw [this]
    show (List.map (logRow iter) _).map _ = _
    rw [List.map_map]
    rfl
  · rw [h.read]
    exact Repo.scan_sorted _

example := C121_all (fun _ => none) exIter exJob exFiles exJob_opened

example : ∃ spec, Commands.Sub.default .revParse = some spec ∧ revParse (fun _ => none) spec true exJob = .ok ["aXk", "bYm", "cZn"] := by
  exact ⟨"all", rfl, by decide +kernel⟩

end Verif.Listing
