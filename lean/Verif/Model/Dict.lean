/-!
# Association lists

Python `dict` values are modelled as association lists in insertion order.  This file is a
small library; it models no particular line of `/repo` but the builtin `dict`.
-/
namespace Verif

/-- Python `dict`, in insertion order (builtin type, no line of /repo). -/
abbrev Dict (K V : Type) := List (K × V)

namespace Dict
variable {K V : Type} [DecidableEq K]

/-- `d.get(k)` (builtin). -/
def get? : Dict K V → K → Option V
  | [], _ => none
  | (k', v) :: t, k => if k' = k then some v else get? t k

/-- `d[k] = v` (builtin): replaces in place, appends a new key. -/
def set : Dict K V → K → V → Dict K V
  | [], k, v => [(k, v)]
  | (k', v') :: t, k, v => if k' = k then (k, v) :: t else (k', v') :: set t k v

/-- `del d[k]` without the KeyError (builtin). -/
def erase (d : Dict K V) (k : K) : Dict K V := d.filter (fun e => decide (e.1 ≠ k))

/-- `k in d` (builtin). -/
def has (d : Dict K V) (k : K) : Bool := (get? d k).isSome

/-- `d.keys()` (builtin). -/
def keys (d : Dict K V) : List K := d.map Prod.fst

/-- `d.values()` (builtin). -/
def values (d : Dict K V) : List V := d.map Prod.snd

@[simp] theorem get?_nil (k : K) : get? ([] : Dict K V) k = none := rfl

@[simp] theorem get?_set_self (d : Dict K V) (k : K) (v : V) : (d.set k v).get? k = some v := by
  induction d with
  | nil => simp [set, get?]
  | cons e t ih =>
    obtain ⟨k', v'⟩ := e
    by_cases h : k' = k <;> simp [set, get?, h, ih]

theorem get?_set_ne (d : Dict K V) {k k' : K} (v : V) (h : k' ≠ k) :
    (d.set k v).get? k' = d.get? k' := by
  induction d with
  | nil => simp [set, get?, Ne.symm h]
  | cons e t ih =>
    obtain ⟨a, b⟩ := e
    by_cases ha : a = k
    · subst ha; simp [set, get?, Ne.symm h]
    · simp [set, get?, ha, ih]

theorem get?_set (d : Dict K V) (k k' : K) (v : V) :
    (d.set k v).get? k' = if k' = k then some v else d.get? k' := by
  by_cases h : k' = k
  · subst h; simp
  · simp [h, get?_set_ne d v h]

theorem get?_filter (d : Dict K V) (p : K → Bool) (k : K) :
    get? (d.filter (fun e => p e.1)) k = if p k then d.get? k else none := by
  induction d with
  | nil => simp [get?]
  | cons e t ih =>
    obtain ⟨a, b⟩ := e
    by_cases hp : p a <;> by_cases ha : a = k
    · subst ha; simp [get?, hp]
    · simp [get?, hp, ha, ih]
    · subst ha; simp [hp, ih]
    · simp [get?, hp, ha, ih]

theorem get?_erase (d : Dict K V) (k k' : K) :
    (d.erase k).get? k' = if k' = k then none else d.get? k' := by
  unfold erase
  rw [get?_filter d (fun a => decide (a ≠ k)) k']
  by_cases h : k' = k <;> simp [h]

@[simp] theorem get?_erase_self (d : Dict K V) (k : K) : (d.erase k).get? k = none := by
  simp [get?_erase]

theorem get?_erase_ne (d : Dict K V) {k k' : K} (h : k' ≠ k) :
    (d.erase k).get? k' = d.get? k' := by simp [get?_erase, h]

theorem mem_of_get? {d : Dict K V} {k : K} {v : V} (h : d.get? k = some v) : (k, v) ∈ d := by
  induction d with
  | nil => simp at h
  | cons e t ih =>
    obtain ⟨a, b⟩ := e
    by_cases ha : a = k
    · subst ha; simp [get?] at h; simp [h]
    · simp [get?, ha] at h; simp [ih h]

theorem mem_keys_iff {d : Dict K V} {k : K} : k ∈ d.keys ↔ (d.get? k).isSome := by
  induction d with
  | nil => simp [keys]
  | cons e t ih =>
    obtain ⟨a, b⟩ := e
    simp only [keys, List.map_cons, List.mem_cons] at ih ⊢
    by_cases ha : a = k
    · subst ha; simp [get?]
    · simp [get?, ha, ← ih, Ne.symm ha]

theorem get?_eq_none_iff {d : Dict K V} {k : K} : d.get? k = none ↔ k ∉ d.keys := by
  rw [mem_keys_iff]; cases d.get? k <;> simp

theorem get?_of_mem {d : Dict K V} (hn : d.keys.Nodup) {k : K} {v : V} (h : (k, v) ∈ d) :
    d.get? k = some v := by
  induction d with
  | nil => simp at h
  | cons e t ih =>
    obtain ⟨a, b⟩ := e
    simp only [keys, List.map_cons, List.nodup_cons] at hn
    simp only [List.mem_cons, Prod.mk.injEq] at h
    rcases h with ⟨rfl, rfl⟩ | h
    · simp [get?]
    · have : a ≠ k := by
        rintro rfl
        exact hn.1 (List.mem_map.2 ⟨(a, v), h, rfl⟩)
      simp [get?, this, ih hn.2 h]

theorem mem_iff_get? {d : Dict K V} (hn : d.keys.Nodup) {k : K} {v : V} :
    (k, v) ∈ d ↔ d.get? k = some v := ⟨get?_of_mem hn, mem_of_get?⟩

theorem keys_set (d : Dict K V) (k : K) (v : V) :
    (d.set k v).keys = if k ∈ d.keys then d.keys else d.keys ++ [k] := by
  induction d with
  | nil => simp [set, keys]
  | cons e t ih =>
    obtain ⟨a, b⟩ := e
    simp only [keys] at ih
    by_cases ha : a = k
    · subst ha; simp [set, keys]
    · simp only [set, ha, if_false, keys, List.map_cons, ih, List.mem_cons, Ne.symm ha, false_or]
      by_cases hk : k ∈ List.map Prod.fst t <;> simp [hk]

theorem nodup_set {d : Dict K V} (hn : d.keys.Nodup) (k : K) (v : V) : (d.set k v).keys.Nodup := by
  rw [keys_set]; split
  · exact hn
  · rename_i h
    rw [List.nodup_append]
    refine ⟨hn, by simp, ?_⟩
    intro a ha b hb
    simp only [List.mem_singleton] at hb
    subst hb
    rintro rfl; exact h ha

omit [DecidableEq K] in
theorem nodup_filter {d : Dict K V} (hn : d.keys.Nodup) (p : K × V → Bool) :
    keys (d.filter p) |>.Nodup := by
  unfold keys at *
  exact (List.filter_sublist.map Prod.fst).nodup hn

theorem nodup_erase {d : Dict K V} (hn : d.keys.Nodup) (k : K) : (d.erase k).keys.Nodup :=
  nodup_filter hn _

theorem mem_set {d : Dict K V} {k : K} {v : V} {e : K × V} (h : e ∈ d.set k v) :
    e = (k, v) ∨ e ∈ d := by
  induction d with
  | nil => simpa [set] using h
  | cons a t ih =>
    obtain ⟨a, b⟩ := a
    by_cases ha : a = k
    · simp only [set, ha, if_true, List.mem_cons] at h
      rcases h with h | h
      · exact .inl h
      · exact .inr (by simp [h])
    · simp only [set, ha, if_false, List.mem_cons] at h
      rcases h with h | h
      · exact .inr (by simp [h])
      · rcases ih h with h | h
        · exact .inl h
        · exact .inr (by simp [h])

theorem mem_values_set {d : Dict K V} {k : K} {v w : V} (h : w ∈ (d.set k v).values) :
    w = v ∨ w ∈ d.values := by
  simp only [values, List.mem_map] at h
  obtain ⟨e, he, rfl⟩ := h
  rcases mem_set he with h | h
  · exact .inl (by simp [h])
  · exact .inr (by simp only [values, List.mem_map]; exact ⟨e, h, rfl⟩)

/-- Permuting a dict with distinct keys does not change lookups. -/
theorem get?_perm {d d' : Dict K V} (h : d.Perm d') (hn : d.keys.Nodup) (k : K) :
    d'.get? k = d.get? k := by
  have hn' : d'.keys.Nodup := (h.map Prod.fst).nodup_iff.1 hn
  cases hg : d.get? k with
  | none =>
    rw [get?_eq_none_iff] at hg ⊢
    intro hk; exact hg ((h.map Prod.fst).mem_iff.2 hk)
  | some v => exact get?_of_mem hn' (h.mem_iff.1 (mem_of_get? hg))

end Dict
end Verif
