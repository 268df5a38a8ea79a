import Verif.Model.RevMeta
import Verif.Props.RepoScan
/-!
# C34: revision metadata survives a write/read cycle
-/
set_option linter.dupNamespace false
namespace Verif.Repo
open Verif

/-- The value of an optional field: kept if the key was written, the documented default if not. -/
def kept {α : Type} (drop : String → Bool) (key : String) (v dflt : α) : α := if drop key then dflt else v

/-- **C34** Writing the metadata of any revision and reading it back gives the same revision, whatever the
order in which the tag sets are written; if the optional keys `drop` are missing from the file (files of
older versions), exactly these fields get their defaults: no statistics, no tags, no original tags,
local server, trusted. -/
theorem C34_metadata_roundtrip (iso : String → Option (Bool × Int)) (r : Rev) (parent : String)
    (tags origTags : List String) (ht : tags.toFinset = r.tags) (ho : origTags.toFinset = r.origTags)
    (drop : String → Bool) (hu : drop "uuid" = false) (hts : drop "timestamp" = false) :
    Rev.fromDict iso ((r.toDict parent tags origTags).filter (fun e => !drop e.1)) =
      .ok { uuid := r.uuid
            ts := r.ts
            stats := kept drop "stats" r.stats []
            trust := kept drop "trust" r.trust .trusted
            tags := kept drop "tags" r.tags ∅
            origTags := kept drop "orig_tags" r.origTags ∅
            server := kept drop "server" r.server "" } := by
  have hg : ∀ k, Dict.get? ((r.toDict parent tags origTags).filter (fun e => !drop e.1)) k =
      if (!drop k) then (r.toDict parent tags origTags).get? k else none :=
    fun k => Dict.get?_filter (r.toDict parent tags origTags) (fun k => !drop k) k
  have htr : ∀ t : Trust, Trust.ofValue t.value = .ok t := by intro t; cases t <;> decide
  unfold Rev.fromDict
  rw [hg, hg, hg, hg, hg, hg, hg, hu, hts]
  have e : ∀ k v, (r.toDict parent tags origTags).get? k = v → (r.toDict parent tags origTags).get? k = v :=
    fun _ _ h => h
  rw [e "timestamp" (some (.time true r.ts)) rfl, e "uuid" (some (.str r.uuid)) rfl,
    e "stats" (some (.stats r.stats)) rfl, e "tags" (some (.list tags)) rfl,
    e "orig_tags" (some (.list origTags)) rfl, e "server" (some (.str r.server)) rfl,
    e "trust" (some (.str r.trust.value)) rfl]
  unfold kept
  cases h1 : drop "stats" <;> cases h2 : drop "tags" <;> cases h3 : drop "orig_tags" <;>
    cases h4 : drop "server" <;> cases h5 : drop "trust" <;>
    simp [loadTs, loadStats, loadSet, loadStr, ht, ho, bind, Except.bind, pure, Except.pure, htr,
      show Trust.ofValue "trusted" = .ok .trusted from rfl]

/-- Without missing keys the revision itself comes back. -/
theorem C34_metadata_roundtrip_full (iso : String → Option (Bool × Int)) (r : Rev) (parent : String)
    (tags origTags : List String) (ht : tags.toFinset = r.tags) (ho : origTags.toFinset = r.origTags) :
    Rev.fromDict iso (r.toDict parent tags origTags) = .ok r := by
  have h := C34_metadata_roundtrip iso r parent tags origTags ht ho (fun _ => false) rfl rfl
  rw [List.filter_eq_self.2 (by simp)] at h
  exact h

/-- A file without id or time is an error, and so is a time that is not UTC. -/
theorem C34_required_keys (iso : String → Option (Bool × Int)) (d : Dict String Val)
    (h : d.get? "timestamp" = none ∨ d.get? "uuid" = none ∨ (∃ t, d.get? "timestamp" = some (.time false t)) ∨
      ∃ s, d.get? "timestamp" = some (.str s) ∧ ∀ t, iso s ≠ some (true, t)) :
    ∃ e, Rev.fromDict iso d = .error e := by
  unfold Rev.fromDict
  rcases h with h | h | ⟨t, h⟩ | ⟨s, h, hs⟩
  · rw [h]; exact ⟨_, rfl⟩
  · cases d.get? "timestamp" with
    | none => exact ⟨_, rfl⟩
    | some v =>
      dsimp only
      cases loadTs iso v with
      | error e => exact ⟨_, rfl⟩
      | ok ts => rw [h]; exact ⟨_, rfl⟩
  · rw [h]; exact ⟨_, rfl⟩
  · rw [h]
    dsimp only [loadTs]
    cases hi : iso s with
    | none => exact ⟨_, rfl⟩
    | some p =>
      obtain ⟨utc, t⟩ := p
      cases utc with
      | true => exact absurd hi (hs t)
      | false => exact ⟨_, rfl⟩

/-- Times written as text (by older versions and by the API) are read if they are in UTC. -/
theorem C34_text_time (iso : String → Option (Bool × Int)) (r : Rev) (parent : String) (tags origTags : List String)
    (ht : tags.toFinset = r.tags) (ho : origTags.toFinset = r.origTags) (s : String) (hs : iso s = some (true, r.ts)) :
    Rev.fromDict iso ((r.toDict parent tags origTags).set "timestamp" (.str s)) = .ok r := by
  have h := C34_metadata_roundtrip_full iso r parent tags origTags ht ho
  unfold Rev.fromDict at h ⊢
  have hg : ∀ k, k ≠ "timestamp" → ((r.toDict parent tags origTags).set "timestamp" (.str s)).get? k =
      (r.toDict parent tags origTags).get? k := by
    intro k hk
    rw [Dict.get?_set, if_neg hk]
  rw [Dict.get?_set, if_pos rfl, hg _ (by decide), hg _ (by decide), hg _ (by decide), hg _ (by decide), hg _ (by decide),
    hg _ (by decide)]
  have e : (r.toDict parent tags origTags).get? "timestamp" = some (.time true r.ts) := rfl
  rw [e] at h
  simp only [loadTs, hs] at h ⊢
  exact h

/-- Test: a remote revision with pending tag changes; the sets are written in some order. -/
example : Rev.fromDict (fun _ => none) ((mkRev "a" 17 {"x", "manual:y"} "srv").toDict "p" ["manual:y", "x"] []) =
    .ok (mkRev "a" 17 {"x", "manual:y"} "srv") :=
  C34_metadata_roundtrip_full _ _ _ _ _ (by decide) (by decide)

/-- C34_required_keys: a file without a time; a time without zone. -/
example := C34_required_keys (fun _ => none) [("uuid", .str "a")] (.inl rfl)
example := C34_required_keys (fun _ => none) [("uuid", .str "a"), ("timestamp", .time false 5)] (.inr (.inr (.inl ⟨5, rfl⟩)))

/-- C34_metadata_roundtrip: a file without "trust" and "server". -/
example := C34_metadata_roundtrip (fun _ => none) (mkRev "a" 17 {"x", "manual:y"} "srv") "p" ["manual:y", "x"] [] (by decide) (by decide)
  (fun k => k == "trust" || k == "server") (by decide) (by decide)

end Verif.Repo
