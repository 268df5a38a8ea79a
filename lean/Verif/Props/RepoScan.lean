import Verif.Proofs.RepoScan
/-!
# Property C33: scanning
-/
set_option linter.dupNamespace false
namespace Verif.Repo
open Verif

/-- **C33** For any content of the directory, the scanned history is ordered oldest first, contains each
revision id once, consists of revisions read from metadata files that are not symbolic links, and
misses no revision id; scanning again changes nothing. -/
theorem C33_scan_sorted_unique (s : Repo) :
    s.scan.history.Pairwise (fun a b => a.ts ≤ b.ts) ∧
    (s.scan.history.map Rev.uuid).Nodup ∧
    (∀ r ∈ s.scan.history, ∃ name f, (name, f) ∈ s.files ∧ f.link = false ∧ f.rev = r) ∧
    (∀ name f, (name, f) ∈ s.files → f.link = false →
      ∃ r ∈ s.scan.history, r.uuid = f.rev.uuid) ∧
    s.scan.files = s.files ∧ s.scan.scan = s.scan := by
  obtain ⟨h1, h2, h3, h4⟩ := scanLoop_spec s.files [] (by simp)
  have hp := sortHist_perm (scanLoop s.files [])
  refine ⟨s.scan_sorted, s.scan_nodup, fun r hr => ?_, fun n f hm hf => ?_, rfl, rfl⟩
  · rcases h2 r (hp.mem_iff.1 hr) with h | h
    · simp at h
    · exact h
  · obtain ⟨r, hr, hu⟩ := h4 n f hm hf
    exact ⟨r, hp.mem_iff.2 hr, hu⟩

/-- **C33** The history does not depend on the order in which the directory is listed: it is the same
up to reordering, and exactly the same if no two revisions have the same time.  (Metadata files are
named after their revision.) -/
theorem C33_scan_order_independent (s t : Repo) (hperm : s.files.Perm t.files) (hn : Named s.files) :
    s.scan.history.Perm t.scan.history ∧
    ((∀ a ∈ s.scan.history, ∀ b ∈ s.scan.history, a.ts = b.ts → a = b) →
      s.scan.history = t.scan.history) := by
  have hn' : Named t.files :=
    ⟨(hperm.map Prod.fst).nodup_iff.1 hn.nodup, fun n f hm hf => hn.named n f (hperm.mem_iff.2 hm) hf⟩
  have hmem : ∀ r, r ∈ s.scan.history ↔ r ∈ t.scan.history := by
    intro r
    rw [Repo.scan_mem hn, Repo.scan_mem hn', onDisk_eq_some, onDisk_eq_some,
      Dict.get?_perm hperm hn.nodup]
  have hp : s.scan.history.Perm t.scan.history :=
    (List.perm_ext_iff_of_nodup (nodup_of_map_uuid s.scan_nodup) (nodup_of_map_uuid t.scan_nodup)).2 hmem
  refine ⟨hp, fun hd => ?_⟩
  exact List.Perm.eq_of_pairwise (fun a b ha hb h1 h2 => hd a ha b ((hmem b).2 hb) (by omega))
    s.scan_sorted t.scan_sorted hp

/-- A small revision for the examples. -/
def mkRev (uuid : String) (ts : Int) (tags : Finset String) (server : String := "")
    (clean : Bool := true) (trust : Trust := .trusted) : Rev :=
  { uuid, ts, stats := if clean then [("duration", 1)] else [], trust, tags, origTags := ∅, server }

/-- Test: three files, one of them a link, listed newest first. -/
def exFiles : Dict String RevFile :=
  [("c", ⟨false, mkRev "c" 30 {"daily"}⟩), ("last", ⟨true, mkRev "c" 30 {"daily"}⟩),
   ("a", ⟨false, mkRev "a" 10 {"daily"}⟩), ("b", ⟨false, mkRev "b" 20 {"manual:x"} "srv"⟩)]

example : Named exFiles := by
  refine ⟨by decide +kernel, ?_⟩
  intro n f hm hf
  simp only [exFiles, List.mem_cons, Prod.mk.injEq, List.not_mem_nil, or_false] at hm
  rcases hm with ⟨rfl, rfl⟩ | ⟨rfl, rfl⟩ | ⟨rfl, rfl⟩ | ⟨rfl, rfl⟩
  · rfl
  · simp at hf
  · rfl
  · rfl

example : ((Repo.scan ⟨exFiles, [], []⟩).history.map Rev.uuid) = ["a", "b", "c"] := by decide +kernel

end Verif.Repo
