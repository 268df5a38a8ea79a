import Verif.Model.Consul
/-!
# C58: snapshot requests are cleaned up
-/
namespace Verif.Consul
open Verif Verif.Repo

/-- The entry is a request of backy for this VM. -/
def Own (parse : String → Parsed) (vm : String) (key value : String) : Prop :=
  startsWith key "snapshot/" = true ∧ ∃ n, parse value = .obj (.str vm) (.str n) ∧ startsWith n "backy-" = true

/-- The entry is a request that backy can handle: a JSON object with the name of a VM and, if it is this one, of a snapshot. -/
def Readable (parse : String → Parsed) (vm : String) (value : String) : Prop :=
  ∃ v f, parse value = .obj v f ∧ v ≠ .missing ∧ (v = .str vm → ∃ n, f = .str n)

theorem cleanValue_spec {parse : String → Parsed} {vm key value : String} (h : Readable parse vm value) (s : St)
    (hk : startsWith key "snapshot/" = true) :
    (cleanValue parse vm key value s).1 = .ok () ∧ (cleanValue parse vm key value s).2.snaps = s.snaps ∧
    (Own parse vm key value → (cleanValue parse vm key value s).2.kv = s.kv.erase key) ∧
    (¬ Own parse vm key value → (cleanValue parse vm key value s).2.kv = s.kv) := by
  obtain ⟨v, f, hp, hv, hf⟩ := h
  unfold cleanValue
  rw [hp]
  cases v with
  | missing => exact absurd rfl hv
  | other =>
    refine ⟨rfl, rfl, ?_, fun _ => rfl⟩
    rintro ⟨_, n, hn, _⟩; rw [hp] at hn; cases hn
  | str w =>
    dsimp only
    by_cases hw : w = vm
    · rw [if_neg (by simpa using hw)]
      subst hw
      obtain ⟨n, rfl⟩ := hf rfl
      unfold cleanOwn
      dsimp only
      by_cases hb : startsWith n "backy-" = true
      · rw [if_pos hb]
        exact ⟨rfl, rfl, fun _ => rfl, fun h => absurd ⟨hk, n, hp, hb⟩ h⟩
      · rw [if_neg hb]
        refine ⟨rfl, rfl, ?_, fun _ => rfl⟩
        rintro ⟨_, n', hn, hb'⟩; rw [hp] at hn; cases hn; exact absurd hb' hb
    · rw [if_pos hw]
      refine ⟨rfl, rfl, ?_, fun _ => rfl⟩
      rintro ⟨_, n', hn, hb'⟩; rw [hp] at hn; cases hn; exact absurd rfl hw

theorem cleanLoop_spec (parse : String → Parsed) (vm : String) : ∀ (keys : List String) (s : St), keys.Nodup →
    (∀ k ∈ keys, startsWith k "snapshot/" = true) → (∀ k ∈ keys, ∀ v, s.kv.get? k = some v → Readable parse vm v) →
    (cleanLoop parse vm keys s).1 = .ok () ∧ (cleanLoop parse vm keys s).2.snaps = s.snaps ∧
    (∀ k, k ∉ keys → (cleanLoop parse vm keys s).2.kv.get? k = s.kv.get? k) ∧
    (∀ k ∈ keys, ∀ v, (cleanLoop parse vm keys s).2.kv.get? k = some v ↔ s.kv.get? k = some v ∧ ¬ Own parse vm k v)
  | [], s, _, _, _ => ⟨rfl, rfl, fun _ _ => rfl, by intro k h; cases h⟩
  | key :: rest, s, hn, hp, hr => by
    rw [List.nodup_cons] at hn
    simp only [cleanLoop]
    cases hg : s.kv.get? key with
    | none =>
      obtain ⟨a, b, c, d⟩ := cleanLoop_spec parse vm rest s hn.2 (fun k hk => hp k (by simp [hk])) (fun k hk => hr k (by simp [hk]))
      refine ⟨a, b, fun k hk => c k (fun h => hk (by simp [h])), ?_⟩
      intro k hk v
      rcases List.mem_cons.1 hk with rfl | hk
      · rw [c k hn.1, hg]; simp
      · exact d k hk v
    | some value =>
      obtain ⟨e1, e2, e3, e4⟩ := cleanValue_spec (hr key (by simp) value hg) s (hp key (by simp))
      dsimp only
      generalize hx : cleanValue parse vm key value s = x at e1 e2 e3 e4
      obtain ⟨x1, x2⟩ := x
      simp only at e1 e2 e3 e4
      subst e1
      dsimp only
      have hkv : ∀ k, k ≠ key → x2.kv.get? k = s.kv.get? k := by
        intro k hk
        by_cases ho : Own parse vm key value
        · rw [e3 ho, Dict.get?_erase, if_neg hk]
        · rw [e4 ho]
      have hne : ∀ k ∈ rest, k ≠ key := fun k hk e => hn.1 (e ▸ hk)
      obtain ⟨a, b, c, d⟩ := cleanLoop_spec parse vm rest x2 hn.2 (fun k hk => hp k (by simp [hk]))
        (fun k hk v hv => hr k (by simp [hk]) v (by rw [← hkv k (hne k hk)]; exact hv))
      refine ⟨a, b.trans e2, ?_, ?_⟩
      · intro k hk
        rw [List.mem_cons, not_or] at hk
        rw [c k hk.2, hkv k hk.1]
      · intro k hk v
        rcases List.mem_cons.1 hk with rfl | hk
        · rw [c k hn.1]
          by_cases ho : Own parse vm k value
          · rw [e3 ho, Dict.get?_erase, if_pos rfl, hg]
            constructor
            · intro h; cases h
            · rintro ⟨h1, h2⟩; cases h1; exact absurd ho h2
          · rw [e4 ho, hg]
            constructor
            · intro h; cases h; exact ⟨rfl, ho⟩
            · exact fun h => h.1
        · rw [d k hk v, hkv k (hne k hk)]

/-- **C58 (partial)** If all requests in the store can be read, creating a snapshot through the coordination service succeeds if the
snapshot appears in time or can be created directly afterwards; in any case none of this VM's requests of backy is left,
including the new one, and all other entries are unchanged (except those that others delete meanwhile).  Missing: garbage entries, see
`C58_false_garbage`. -/
theorem C58_cleanup_partial (parse : String → Parsed) (render : String → String → String) (vm key name : String)
    (poll : Poll) (createFails : Bool) (gone : String → Bool) (s : St) (hkeys : s.kv.keys.Nodup)
    (hparse : parse (render vm name) = .obj (.str vm) (.str name)) (hkey : startsWith key "snapshot/" = true)
    (hname : startsWith name "backy-" = true)
    (hread : ∀ k v, s.kv.get? k = some v → startsWith k "snapshot/" = true → Readable parse vm v) :
    ((createSnapshot parse render true vm key name poll createFails gone s).1 = .ok () ↔
      poll = .seen ∨ (poll = .timeout ∧ createFails = false ∧ name ∉ s.snaps)) ∧
    (∀ k v, (createSnapshot parse render true vm key name poll createFails gone s).2.kv.get? k = some v ↔
      k ≠ key ∧ s.kv.get? k = some v ∧ gone k = false ∧ ¬ Own parse vm k v) ∧
    (poll = .timeout → createFails = false → name ∉ s.snaps →
      (createSnapshot parse render true vm key name poll createFails gone s).2.snaps = s.snaps ++ [name]) := by
  unfold createSnapshot
  rw [if_neg (by simp)]
  generalize hw : waitFor poll createFails name { s with kv := s.kv.set key (render vm name) } = w
  obtain ⟨w1, w2⟩ := w
  have hkv : w2.kv = s.kv.set key (render vm name) := by
    unfold waitFor snapCreate at hw
    cases poll with
    | seen => cases hw; rfl
    | lsFails => cases hw; rfl
    | timeout => simp only at hw; split at hw <;> cases hw <;> rfl
  have hres : w1 = .ok () ↔ poll = .seen ∨ (poll = .timeout ∧ createFails = false ∧ name ∉ s.snaps) := by
    unfold waitFor snapCreate at hw
    cases poll with
    | seen => cases hw; simp
    | lsFails => cases hw; simp
    | timeout =>
      simp only at hw
      split at hw
      · rename_i h; cases hw; simp only [reduceCtorEq, false_or, true_and, false_iff]; rintro ⟨h1, h2⟩
        rcases h with h | h
        · rw [h1] at h; cases h
        · exact h2 h
      · rename_i h; cases hw; rw [not_or] at h; simp [h.2, Bool.not_eq_true] ; simpa using h.1
  have hsn : poll = .timeout → createFails = false → name ∉ s.snaps → w2.snaps = s.snaps ++ [name] := by
    intro h1 h2 h3
    subst h1
    unfold waitFor snapCreate at hw
    simp only at hw
    rw [if_neg (by rintro (h | h); · rw [h2] at h; cases h
                   · exact h3 h)] at hw
    cases hw; rfl
  have hn2 : w2.kv.keys.Nodup := by rw [hkv]; exact Dict.nodup_set hkeys _ _
  have hread2 : ∀ k ∈ snapshotKeys w2.kv, ∀ v, Dict.get? (w2.kv.filter (fun e => !gone e.1)) k = some v → Readable parse vm v := by
    intro k hk v hv
    rw [Dict.get?_filter w2.kv (fun k => !gone k)] at hv
    split at hv
    · rw [hkv, Dict.get?_set] at hv
      have hks : startsWith k "snapshot/" = true := by simpa using (List.mem_filter.1 hk).2
      split at hv
      · cases hv
        exact ⟨_, _, hparse, by simp, fun _ => ⟨_, rfl⟩⟩
      · exact hread k v hv hks
    · cases hv
  obtain ⟨a, b, c, d⟩ := cleanLoop_spec parse vm (snapshotKeys w2.kv) { w2 with kv := w2.kv.filter (fun e => !gone e.1) }
    (hn2.sublist List.filter_sublist) (fun k hk => by simpa using (List.mem_filter.1 hk).2) hread2
  dsimp only
  unfold cleanRequests
  generalize hx : cleanLoop parse vm (snapshotKeys w2.kv) { w2 with kv := w2.kv.filter (fun e => !gone e.1) } = x at a b c d
  obtain ⟨x1, x2⟩ := x
  simp only at a b c d
  subst a
  dsimp only
  refine ⟨hres, ?_, fun h1 h2 h3 => b.trans (hsn h1 h2 h3)⟩
  intro k v
  have hfil : ∀ v, Dict.get? (w2.kv.filter (fun e => !gone e.1)) k = some v ↔
      (if k = key then some (render vm name) else s.kv.get? k) = some v ∧ gone k = false := by
    intro v
    rw [Dict.get?_filter w2.kv (fun k => !gone k), hkv, Dict.get?_set]
    cases hgk : gone k <;> simp
  by_cases hks : startsWith k "snapshot/" = true
  · by_cases hin : k ∈ snapshotKeys w2.kv
    · rw [d k hin v, hfil]
      by_cases hkk : k = key
      · subst hkk
        simp only [if_true, ne_eq, not_true_eq_false, false_and, iff_false]
        rintro ⟨⟨h1, _⟩, h2⟩
        cases h1
        exact h2 ⟨hkey, name, hparse, hname⟩
      · rw [if_neg hkk]
        constructor
        · rintro ⟨⟨h1, h2⟩, h3⟩; exact ⟨hkk, h1, h2, h3⟩
        · rintro ⟨_, h1, h2, h3⟩; exact ⟨⟨h1, h2⟩, h3⟩
    · have hnone : w2.kv.get? k = none := by
        rw [Dict.get?_eq_none_iff]
        intro hm
        exact hin (List.mem_filter.2 ⟨hm, by simpa using hks⟩)
      rw [hkv, Dict.get?_set] at hnone
      rw [c k hin, hfil, hnone]
      split at hnone
      · cases hnone
      · rw [hnone]; simp
  · have hin : k ∉ snapshotKeys w2.kv := fun h => hks (by simpa using (List.mem_filter.1 h).2)
    rw [c k hin, hfil]
    have hkk : k ≠ key := fun e => hks (e ▸ hkey)
    rw [if_neg hkk]
    constructor
    · rintro ⟨h1, h2⟩; exact ⟨hkk, h1, h2, fun ho => hks ho.1⟩
    · rintro ⟨_, h1, h2, _⟩; exact ⟨h1, h2⟩

/-- A decoder for the examples. -/
def exParse : String → Parsed
  | "other" => .obj (.str "vm2") (.str "backy-x")
  | "old" => .obj (.str "vm1") (.str "backy-old")
  | "manual" => .obj (.str "vm1") (.str "manual")
  | "new" => .obj (.str "vm1") (.str "backy-new")
  | _ => .garbage

/-- The hypotheses of `C58_cleanup_partial` are met. -/
example : ∃ s : St, s.kv.keys.Nodup ∧ (∀ k v, s.kv.get? k = some v → startsWith k "snapshot/" = true → Readable exParse "vm1" v) ∧
    (createSnapshot exParse (fun _ _ => "new") true "vm1" "snapshot/9" "backy-new" .timeout false (fun _ => false) s) =
      (.ok (), ⟨[("snapshot/1", "other"), ("snapshot/3", "manual"), ("x", "y")], ["a", "backy-new"]⟩) := by
  refine ⟨⟨[("snapshot/1", "other"), ("snapshot/2", "old"), ("snapshot/3", "manual"), ("x", "y")], ["a"]⟩, by decide +kernel, ?_,
    by decide +kernel⟩
  intro k v hv hk
  have hm := Dict.mem_of_get? hv
  simp only [List.mem_cons, Prod.mk.injEq, List.not_mem_nil, or_false] at hm
  rcases hm with ⟨_, rfl⟩ | ⟨_, rfl⟩ | ⟨_, rfl⟩ | ⟨rfl, rfl⟩
  · exact ⟨_, _, rfl, by decide, fun _ => ⟨_, rfl⟩⟩
  · exact ⟨_, _, rfl, by decide, fun _ => ⟨_, rfl⟩⟩
  · exact ⟨_, _, rfl, by decide, fun _ => ⟨_, rfl⟩⟩
  · exact absurd hk (by decide +kernel)

/-- **C58 is false of the code**: a garbage entry is removed, but makes the backup fail although the snapshot is there, and requests
after it, including the new one, are left behind. -/
theorem C58_false_garbage : ∃ s : St,
    (createSnapshot exParse (fun _ _ => "new") true "vm1" "snapshot/9" "backy-new" .seen false (fun _ => false) s) =
      (.error .type, ⟨[("snapshot/2", "old"), ("snapshot/9", "new")], ["backy-new"]⟩) ∧
    s.kv = [("snapshot/1", "{garbage"), ("snapshot/2", "old")] ∧ exParse "{garbage" = .garbage ∧
    Own exParse "vm1" "snapshot/9" "new" := by
  refine ⟨⟨[("snapshot/1", "{garbage"), ("snapshot/2", "old")], ["backy-new"]⟩, by decide +kernel, rfl, by decide +kernel,
    by decide +kernel, "backy-new", by decide +kernel, by decide +kernel⟩

/-- Requests of another VM, an old own one, one of an administrator, and another key. -/
def exKv : St := ⟨[("snapshot/1", "other"), ("snapshot/2", "old"), ("snapshot/3", "manual"), ("x", "y")], ["a"]⟩

theorem exKv_readable (k v : String) (hv : exKv.kv.get? k = some v) (hk : startsWith k "snapshot/" = true) : Readable exParse "vm1" v := by
  have hm := Dict.mem_of_get? hv
  simp only [exKv, List.mem_cons, Prod.mk.injEq, List.not_mem_nil, or_false] at hm
  rcases hm with ⟨_, rfl⟩ | ⟨_, rfl⟩ | ⟨_, rfl⟩ | ⟨rfl, rfl⟩
  · exact ⟨_, _, rfl, by decide, fun _ => ⟨_, rfl⟩⟩
  · exact ⟨_, _, rfl, by decide, fun _ => ⟨_, rfl⟩⟩
  · exact ⟨_, _, rfl, by decide, fun _ => ⟨_, rfl⟩⟩
  · exact absurd hk (by decide +kernel)

/-- C58_cleanup_partial: the service does not answer and the snapshot is made by the backup itself. -/
example := C58_cleanup_partial exParse (fun _ _ => "new") "vm1" "snapshot/9" "backy-new" .timeout false (fun _ => false) exKv
  (by decide +kernel) rfl (by decide +kernel) (by decide +kernel) exKv_readable

end Verif.Consul
