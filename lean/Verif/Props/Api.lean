import Verif.Model.Api
import Verif.Props.Tags
import Verif.Proofs.RepoAll
/-!
# C46: every request is authenticated; C47: only inactive repositories can be changed, conditionally
-/
namespace Verif.Api
open Verif Verif.Repo Verif.Repo.Spec

/-- The request has a header `Bearer <token>` with a configured token that belongs to a named client. -/
def Authorized (tokens : Dict String String) (q : Request) : Prop :=
  ∃ token client, q.auth = some ("Bearer " ++ token) ∧ tokens.get? token = some client ∧ client ≠ ""

theorem bearer_iff (h t : String) : bearer h = some t ↔ h = "Bearer " ++ t := by
  unfold bearer startsWith
  have hb : "Bearer ".toList.length = 7 := by decide
  constructor
  · intro hh
    split at hh
    · rename_i hp
      cases hh
      rw [List.isPrefixOf_iff_prefix] at hp
      obtain ⟨l, hl⟩ := hp
      rw [← String.toList_inj, String.toList_append, String.toList_ofList, ← hl]
      congr 1
      rw [String.toList_ofList]; rfl
    · cases hh
  · rintro rfl
    rw [if_pos]
    · congr 1
      rw [← String.toList_inj, String.toList_ofList, String.toList_append]
      rfl
    · rw [List.isPrefixOf_iff_prefix, String.toList_append]
      exact List.prefix_append _ _

theorem authenticate_iff (tokens : Dict String String) (q : Request) :
    authenticate tokens q ≠ none ↔ Authorized tokens q := by
  unfold authenticate Authorized
  cases hb : bearer (q.auth.getD "") with
  | none =>
    simp only [ne_eq, not_true_eq_false, false_iff]
    rintro ⟨t, c, ha, _, _⟩
    rw [ha] at hb
    have := (bearer_iff ("Bearer " ++ t) t).2 rfl
    simp only [Option.getD_some] at hb
    rw [hb] at this; cases this
  | some t =>
    have hbi := (bearer_iff _ _).1 hb
    have ha : q.auth = some ("Bearer " ++ t) := by
      cases hq : q.auth with
      | none =>
        rw [hq] at hbi
        simp only [Option.getD_none] at hbi
        have := congrArg String.length hbi
        rw [String.length_append] at this
        have h7 : "Bearer ".length = 7 := by decide
        simp only [h7, String.length_empty] at this
        omega
      | some h => rw [hq] at hbi; simp only [Option.getD_some] at hbi; rw [hbi]
    simp only []
    cases hc : tokens.get? t with
    | none =>
      simp only [ne_eq, not_true_eq_false, false_iff]
      rintro ⟨t', c, ha', hc', _⟩
      rw [ha] at ha'
      have : t = t' := by
        have := Option.some.inj ha'
        rw [← String.toList_inj, String.toList_append, String.toList_append] at this
        exact String.toList_inj.1 (List.append_cancel_left this)
      subst this
      rw [hc] at hc'; cases hc'
    | some c =>
      by_cases he : c = ""
      · simp only [he, if_true, ne_eq, not_true_eq_false, false_iff]
        rintro ⟨t', c', ha', hc', hne⟩
        rw [ha] at ha'
        have : t = t' := by
          have := Option.some.inj ha'
          rw [← String.toList_inj, String.toList_append, String.toList_append] at this
          exact String.toList_inj.1 (List.append_cancel_left this)
        subst this
        rw [hc] at hc'; cases hc'
        exact hne he
      · simp only [he, if_false, ne_eq, reduceCtorEq, not_false_eq_true, true_iff]
        exact ⟨t, c, ha, hc, he⟩

theorem dispatch_not_401 (pd : String → Option Int) (s : Server) (r : Route) (h : ∀ c, r = .other c → c ≠ 401) :
    (dispatch pd s r).1.code ≠ 401 := by
  have hg : ∀ n a c, getBackup s n a = .error c → c ≠ 401 := by
    intro n a c hc
    unfold getBackup at hc
    split at hc
    · cases hc
    · split at hc
      · split at hc
        · cases hc
        · cases hc; decide
      · cases hc; decide
  cases r with
  | status f => cases f <;> simp [dispatch, getStatus]
  | reload => simp [dispatch]
  | jobs => simp [dispatch]
  | runJob n => simp only [dispatch, runJob]; split <;> simp
  | backups => simp [dispatch]
  | purge n =>
    simp only [dispatch, runPurge]
    split
    · rename_i hc; exact hg _ _ _ hc
    · simp
  | touch n =>
    simp only [dispatch, touchBackup]
    split
    · rename_i hc; exact hg _ _ _ hc
    · simp
  | revs n c =>
    simp only [dispatch, getRevs]
    split
    · rename_i hc; exact hg _ _ _ hc
    · simp
  | putTags n spec body a =>
    cases body with
    | garbage => simp [dispatch, putTags]
    | obj o w =>
      cases o with
      | none => simp [dispatch, putTags]
      | some o =>
        cases w with
        | none => simp [dispatch, putTags]
        | some w =>
          simp only [dispatch, putTags]
          split
          · rename_i hc; exact hg _ _ _ hc
          · split
            · simp
            · unfold tagsStatus; split <;> simp
  | other c => exact h c rfl

/-- **C46** For every route: a request that does not carry the token of a named client is answered with 401 and changes
nothing; any other request is not answered with 401. -/
theorem C46_authenticated (pd : String → Option Int) (s : Server) (q : Request) :
    (¬ Authorized s.tokens q → handle pd s q = (⟨401, []⟩, s)) ∧
    (Authorized s.tokens q → (∀ c, q.route = .other c → c = 404 ∨ c = 405) → (handle pd s q).1.code ≠ 401) := by
  unfold handle
  constructor
  · intro h
    rw [← authenticate_iff] at h
    have : authenticate s.tokens q = none := by
      cases hx : authenticate s.tokens q with
      | none => rfl
      | some c => exact absurd (by simp [hx]) h
    rw [this]
  · intro h ho
    rw [← authenticate_iff] at h
    cases hx : authenticate s.tokens q with
    | none => exact absurd hx h
    | some c =>
      refine dispatch_not_401 pd s q.route ?_
      intro c hc
      rcases ho c hc with rfl | rfl <;> decide

/-- Both cases of `C46_authenticated` occur. -/
example : Authorized [("secret", "peer1"), ("revoked", "")] ⟨some "Bearer secret", .reload⟩ ∧
    ¬ Authorized [("secret", "peer1"), ("revoked", "")] ⟨some "Bearer revoked", .reload⟩ ∧
    ¬ Authorized [("secret", "peer1"), ("revoked", "")] ⟨some "bearer secret", .reload⟩ ∧
    ¬ Authorized [("secret", "peer1"), ("revoked", "")] ⟨none, .reload⟩ := by
  simp only [← authenticate_iff]
  decide +kernel

/-! ## C47 -/

/-- No repository is both inactive and that of a job, as a reload leaves it (C54). -/
def Separate (s : Server) : Prop := ∀ n, s.dead.get? n ≠ none → s.jobs.get? n = none

/-- The same metadata files and the same purge mark. -/
def SameData (b b' : Backup) : Prop := b'.repo.files = b.repo.files ∧ b'.purge = b.purge

theorem Repo.scan_files (s : Repo) : s.scan.files = s.files := rfl

/-- The repository a route names as the one to change. -/
def Route.changes : Route → Option String
  | .purge n => some n
  | .putTags n _ _ _ => some n
  | _ => none

theorem get?_map (d : Dict String Backup) (f : String × Backup → Backup) (n : String) :
    Dict.get? (d.map (fun e => (e.1, f e))) n = (d.get? n).map (fun b => f (n, b)) := by
  induction d with
  | nil => rfl
  | cons x d ih =>
    obtain ⟨k, b⟩ := x
    simp only [List.map_cons, Dict.get?]
    by_cases hk : k = n
    · subst hk; simp
    · simp [hk, ih]

/-- Each repository of the first has the same data in the second, and there are no others. -/
def SameRepos (d d' : Dict String Backup) (except : Option String) : Prop :=
  ∀ n, (d'.get? n = none ↔ d.get? n = none) ∧
    ∀ b, d.get? n = some b → except ≠ some n → ∃ b', d'.get? n = some b' ∧ SameData b b'

theorem SameRepos.refl (d : Dict String Backup) (e : Option String) : SameRepos d d e :=
  fun n => ⟨Iff.rfl, fun b hb _ => ⟨b, hb, rfl, rfl⟩⟩

theorem SameRepos.set (d : Dict String Backup) {n : String} {b b' : Backup} (h : d.get? n = some b)
    (e : Option String) (hs : e ≠ some n → SameData b b') : SameRepos d (d.set n b') e := by
  intro m
  rw [Dict.get?_set]
  by_cases hm : m = n
  · subst hm
    refine ⟨by simp [h], ?_⟩
    intro b0 hb0 he
    rw [h] at hb0; cases hb0
    exact ⟨b', by simp, hs he⟩
  · rw [if_neg hm]
    exact ⟨Iff.rfl, fun b0 hb0 _ => ⟨b0, hb0, rfl, rfl⟩⟩

theorem getBackup_ok {s : Server} {n : String} {a : Bool} {k : Kind} {b : Backup} (h : getBackup s n a = .ok (k, b)) :
    (k = .dead ∧ s.dead.get? n = some b) ∨ (k = .active ∧ s.jobs.get? n = some b ∧ s.dead.get? n = none ∧ a = true) := by
  unfold getBackup at h
  split at h
  · rename_i hb; cases h; exact .inl ⟨rfl, hb⟩
  · rename_i hd
    split at h
    · rename_i hb
      split at h
      · rename_i ha; cases h; exact .inr ⟨rfl, hb, hd, ha⟩
      · cases h
    · cases h

theorem put_same {s : Server} {n : String} {a : Bool} {k : Kind} {b : Backup} (h : getBackup s n a = .ok (k, b))
    {b' : Backup} (e : Option String) (hs : e ≠ some n → SameData b b') :
    SameRepos s.dead (s.put k n b').dead e ∧ SameRepos s.jobs (s.put k n b').jobs e := by
  rcases getBackup_ok h with ⟨rfl, hb⟩ | ⟨rfl, hb, _, _⟩
  · exact ⟨SameRepos.set _ hb e hs, SameRepos.refl _ _⟩
  · exact ⟨SameRepos.refl _ _, SameRepos.set _ hb e hs⟩

theorem put_same_active {s : Server} {n : String} {k : Kind} {b : Backup} (h : getBackup s n false = .ok (k, b))
    (b' : Backup) : (s.put k n b').jobs = s.jobs := by
  rcases getBackup_ok h with ⟨rfl, hb⟩ | ⟨rfl, hb, _, h⟩
  · rfl
  · cases h

/-- **C47** No request changes the metadata or requests a purge of a repository of an active job, and of an inactive one only
if the request is `purge` or `put_tags` for it.  No repository appears or disappears. -/
theorem C47_active_untouched (pd : String → Option Int) (s : Server) (q : Request) :
    SameRepos s.jobs (handle pd s q).2.jobs none ∧ SameRepos s.dead (handle pd s q).2.dead q.route.changes := by
  unfold handle
  split
  · exact ⟨SameRepos.refl _ _, SameRepos.refl _ _⟩
  · cases q.route with
    | status f =>
      cases f with
      | none => exact ⟨SameRepos.refl _ _, SameRepos.refl _ _⟩
      | some p =>
        refine ⟨?_, SameRepos.refl _ _⟩
        intro n
        show (Dict.get? (s.jobs.map _) n = none ↔ _) ∧ _
        simp only [dispatch, getStatus]
        rw [get?_map s.jobs (fun e => if p e.1 then { e.2 with repo := e.2.repo.scan } else e.2) n]
        refine ⟨by cases s.jobs.get? n <;> simp, ?_⟩
        intro b hb _
        rw [hb]
        refine ⟨_, rfl, ?_⟩
        dsimp only
        split <;> exact ⟨rfl, rfl⟩
    | reload => exact ⟨SameRepos.refl _ _, SameRepos.refl _ _⟩
    | jobs => exact ⟨SameRepos.refl _ _, SameRepos.refl _ _⟩
    | runJob n =>
      simp only [dispatch, runJob]
      split
      · exact ⟨SameRepos.refl _ _, SameRepos.refl _ _⟩
      · rename_i b hb
        exact ⟨SameRepos.set _ hb _ (fun _ => ⟨rfl, rfl⟩), SameRepos.refl _ _⟩
    | backups => exact ⟨SameRepos.refl _ _, SameRepos.refl _ _⟩
    | purge n =>
      simp only [dispatch, runPurge, Route.changes]
      split
      · exact ⟨SameRepos.refl _ _, SameRepos.refl _ _⟩
      · rename_i k b hb
        refine ⟨?_, (put_same hb (some n) (fun h => absurd rfl h)).1⟩
        show SameRepos s.jobs (s.put k n _).jobs none
        rw [put_same_active hb]; exact SameRepos.refl _ _
    | touch n =>
      simp only [dispatch, touchBackup]
      split
      · exact ⟨SameRepos.refl _ _, SameRepos.refl _ _⟩
      · rename_i k b hb
        exact ⟨(put_same hb (b' := { b with touched := b.touched + 1 }) _ (fun _ => ⟨rfl, rfl⟩)).2,
          (put_same hb (b' := { b with touched := b.touched + 1 }) _ (fun _ => ⟨rfl, rfl⟩)).1⟩
    | revs n c =>
      simp only [dispatch, getRevs]
      split
      · exact ⟨SameRepos.refl _ _, SameRepos.refl _ _⟩
      · rename_i k b hb
        exact ⟨(put_same hb (b' := { b with repo := b.repo.scan }) _ (fun _ => ⟨rfl, rfl⟩)).2,
          (put_same hb (b' := { b with repo := b.repo.scan }) _ (fun _ => ⟨rfl, rfl⟩)).1⟩
    | putTags n spec body a =>
      cases body with
      | garbage => exact ⟨SameRepos.refl _ _, SameRepos.refl _ _⟩
      | obj o w =>
        cases o with
        | none => exact ⟨SameRepos.refl _ _, SameRepos.refl _ _⟩
        | some o =>
          cases w with
          | none => exact ⟨SameRepos.refl _ _, SameRepos.refl _ _⟩
          | some w =>
            simp only [dispatch, putTags, Route.changes]
            split
            · exact ⟨SameRepos.refl _ _, SameRepos.refl _ _⟩
            · rename_i k b hb
              split
              · refine ⟨?_, (put_same hb (some n) (fun h => absurd rfl h)).1⟩
                show SameRepos s.jobs (s.put k n _).jobs none
                rw [put_same_active hb]; exact SameRepos.refl _ _
              · refine ⟨?_, (put_same hb (some n) (fun h => absurd rfl h)).1⟩
                show SameRepos s.jobs (s.put k n _).jobs none
                rw [put_same_active hb]; exact SameRepos.refl _ _
    | other c => exact ⟨SameRepos.refl _ _, SameRepos.refl _ _⟩

/-- **C47** A purge request: 403 for the repository of a job and 404 for an unknown one, without effect; 202 for an inactive
one, which is then marked and otherwise unchanged. -/
theorem C47_purge (pd : String → Option Int) (s : Server) (hs : Separate s) (q : Request) (n : String) (ha : Authorized s.tokens q)
    (hq : q.route = .purge n) :
    (s.jobs.get? n ≠ none → handle pd s q = (⟨403, []⟩, s)) ∧
    (s.jobs.get? n = none → s.dead.get? n = none → handle pd s q = (⟨404, []⟩, s)) ∧
    (∀ b, s.dead.get? n = some b → (handle pd s q).1.code = 202 ∧
      (handle pd s q).2.dead.get? n = some { b with purge := true }) := by
  have hh : handle pd s q = runPurge s n := by
    unfold handle
    rw [← authenticate_iff] at ha
    split
    · rename_i h; exact absurd h ha
    · rw [hq]; rfl
  rw [hh]
  unfold runPurge getBackup
  refine ⟨?_, ?_, ?_⟩
  · intro hj
    have hd : s.dead.get? n = none := by
      cases hx : s.dead.get? n with
      | none => rfl
      | some b => exact absurd (hs n (by simp [hx])) hj
    cases hx : s.jobs.get? n with
    | none => exact absurd hx hj
    | some b => simp [hd]
  · intro hj hd; simp [hj, hd]
  · intro b hb
    simp [hb, Server.put]

/-- **C47** A well-formed request to change tags: 403 for the repository of a job and 404 for an unknown one, without effect.
For an inactive repository: 503 if it is locked; otherwise 404 if the selection raises KeyError and 412 if a selected revision
does not have the expected tags; in all these cases no metadata file changes.  Otherwise 204, and the selected revisions
have exactly the new tags (or are gone, if that was asked for and the new tags are empty), all others are as before. -/
theorem C47_put_tags (pd : String → Option Int) (s : Server) (hs : Separate s) (q : Request) (n spec : String)
    (old new : Finset String) (auto : Bool) (ha : Authorized s.tokens q)
    (hq : q.route = .putTags n spec (.obj (some old) (some new)) auto) :
    (s.jobs.get? n ≠ none → handle pd s q = (⟨403, []⟩, s)) ∧
    (s.jobs.get? n = none → s.dead.get? n = none → handle pd s q = (⟨404, []⟩, s)) ∧
    (∀ b, s.dead.get? n = some b → ∃ b', (handle pd s q).2.dead.get? n = some b' ∧ b'.purge = b.purge ∧
      (b.locked = true → (handle pd s q).1.code = 503 ∧ b'.repo.files = b.repo.files) ∧
      (b.locked = false →
        (∀ e, findRevisions ⟨b.repo.scan.history, pd⟩ spec = .error e →
          (handle pd s q).1.code = (if e = .key then 404 else 500) ∧ b'.repo.files = b.repo.files) ∧
        (∀ revs, findRevisions ⟨b.repo.scan.history, pd⟩ spec = .ok revs →
          ((∃ r ∈ revs, r.tags ≠ old) → (handle pd s q).1.code = 412 ∧ b'.repo.files = b.repo.files) ∧
          ((∀ r ∈ revs, r.tags = old) → (handle pd s q).1.code = 204 ∧
            (∀ r ∈ revs, onDisk b'.repo.files r.uuid =
              if new = ∅ ∧ auto = true ∧ r.server = "" then none else some { r with tags := new }) ∧
            (∀ u, (∀ r ∈ revs, r.uuid ≠ u) → onDisk b'.repo.files u = onDisk b.repo.files u))))) := by
  have hh : handle pd s q = putTags pd s n spec (.obj (some old) (some new)) auto := by
    unfold handle
    rw [← authenticate_iff] at ha
    split
    · rename_i h; exact absurd h ha
    · rw [hq]; rfl
  rw [hh]
  refine ⟨?_, ?_, ?_⟩
  · intro hj
    have hd : s.dead.get? n = none := by
      cases hx : s.dead.get? n with
      | none => rfl
      | some b => exact absurd (hs n (by simp [hx])) hj
    cases hx : s.jobs.get? n with
    | none => exact absurd hx hj
    | some b => simp [putTags, getBackup, hd, hx]
  · intro hj hd; simp [putTags, getBackup, hj, hd]
  · intro b hb
    have hg : getBackup s n false = .ok (.dead, b) := by simp [getBackup, hb]
    by_cases hl : b.locked = true
    · have hp : putTags pd s n spec (.obj (some old) (some new)) auto =
          (⟨503, []⟩, s.put .dead n { b with repo := b.repo.scan }) := by
        simp only [putTags, hg, hl, if_true]
      rw [hp]
      exact ⟨{ b with repo := b.repo.scan }, Dict.get?_set_self _ _ _, rfl, fun _ => ⟨rfl, rfl⟩,
        fun h => by rw [hl] at h; cases h⟩
    · have hp : putTags pd s n spec (.obj (some old) (some new)) auto =
          (⟨tagsStatus (b.repo.scan.tagsOp [] pd "set" spec new (some old) auto true).1, []⟩,
            s.put .dead n { b with repo := (b.repo.scan.tagsOp [] pd "set" spec new (some old) auto true).2 }) := by
        simp only [putTags, hg, if_neg hl]
      rw [hp]
      have hC := C35_tag_change b.repo.scan [] pd .set spec new (some old) auto true
      have hscan : b.repo.scan.scan = b.repo.scan := rfl
      simp only [Action.name, hscan] at hC
      obtain ⟨hC1, hC2⟩ := hC
      refine ⟨{ b with repo := (b.repo.scan.tagsOp [] pd "set" spec new (some old) auto true).2 },
        Dict.get?_set_self _ _ _, rfl, fun h => absurd h hl, fun _ => ⟨?_, ?_⟩⟩
      · intro e he
        obtain ⟨h1, h2⟩ := hC1 e he
        refine ⟨?_, h2⟩
        dsimp only
        rw [h1]
        cases e <;> simp [tagsStatus]
      · intro revs hrevs
        obtain ⟨_, h2⟩ := hC2 revs hrevs
        obtain ⟨h3, h4⟩ := h2 (by simp)
        refine ⟨?_, ?_⟩
        · rintro ⟨r, hr, hne⟩
          obtain ⟨k1, k2⟩ := h3 ⟨r, hr, old, rfl, fun h => hne h.symm⟩
          dsimp only
          rw [k1]; exact ⟨rfl, k2⟩
        · intro hall
          obtain ⟨k1, k2, k3⟩ := h4 (fun r hr t ht => by cases ht; exact (hall r hr).symm)
          dsimp only
          rw [k1]; exact ⟨rfl, k2, k3⟩

/-- **C47** A body that does not have both sets of tags is refused, whatever the repository. -/
theorem C47_bad_request (pd : String → Option Int) (s : Server) (n spec : String) (o : Option (Finset String)) (auto : Bool) :
    dispatch pd s (.putTags n spec (.obj none o) auto) = (⟨400, []⟩, s) ∧
    dispatch pd s (.putTags n spec (.obj o none) auto) = (⟨400, []⟩, s) ∧
    dispatch pd s (.putTags n spec .garbage auto) = (⟨500, []⟩, s) := by
  cases o <;> simp [dispatch, putTags]

/-- A server with one active and one inactive repository. -/
def exServer : Server :=
  { tokens := [("secret", "peer1")]
    dead := [("gone", ⟨⟨exTags.files, [], []⟩, false, false, 0, false⟩)]
    jobs := [("vm", ⟨⟨exTags.files, [], []⟩, false, false, 0, false⟩)]
    reloads := 0 }

/-- The hypotheses of `C47_put_tags` are met, for all the answers. -/
theorem exServer_facts : Separate exServer ∧
    Authorized exServer.tokens ⟨some "Bearer secret", .putTags "gone" "tag:daily" (.obj (some {"daily"}) (some ∅)) true⟩ ∧
    (handle (fun _ => none) exServer ⟨some "Bearer secret", .putTags "gone" "tag:daily" (.obj (some {"daily"}) (some ∅)) true⟩).1.code = 412 ∧
    (handle (fun _ => none) exServer ⟨some "Bearer secret", .putTags "gone" "a" (.obj (some {"daily"}) (some ∅)) true⟩).1.code = 204 ∧
    (handle (fun _ => none) exServer ⟨some "Bearer secret", .putTags "gone" "zzz" (.obj (some {"daily"}) (some ∅)) true⟩).1.code = 404 ∧
    (handle (fun _ => none) exServer ⟨some "Bearer secret", .putTags "vm" "a" (.obj (some {"daily"}) (some ∅)) true⟩).1.code = 403 := by
  refine ⟨?_, ?_, ?_, ?_, ?_, ?_⟩
  · intro n
    simp only [exServer, Dict.get?]
    split
    · rename_i h; subst h; intro _; decide
    · intro h; exact absurd rfl h
  · rw [← authenticate_iff]; decide +kernel
  · decide +kernel
  · decide +kernel
  · decide +kernel
  · decide +kernel

/-! ### The theorems of this file applied to this server -/

/-- C46_authenticated -/
example := (C46_authenticated (fun _ => none) exServer ⟨some "Bearer wrong", .reload⟩).1 (by rw [← authenticate_iff]; decide +kernel)

/-- C47_active_untouched, C47_purge, C47_put_tags -/
example := C47_active_untouched (fun _ => none) exServer ⟨some "Bearer secret", .purge "gone"⟩
example := (C47_purge (fun _ => none) exServer exServer_facts.1 ⟨some "Bearer secret", .purge "gone"⟩ "gone"
  (by rw [← authenticate_iff]; decide +kernel) rfl).2.2 _ rfl
example := (C47_put_tags (fun _ => none) exServer exServer_facts.1 _ "gone" "tag:daily" {"daily"} ∅ true exServer_facts.2.1 rfl).2.2 _ rfl

example := C47_bad_request (fun _ => none) exServer "gone" "tag:daily" (some {"daily"}) true

end Verif.Api
