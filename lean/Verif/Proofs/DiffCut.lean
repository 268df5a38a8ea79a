import Verif.Proofs.DiffDecode
/-! # Cut-off streams and streams with misplaced records -/
namespace Verif.Diff
open Verif Verif.Chunked Verif.Spec

theorem streamChunks_short (blk : Nat) (hblk : 0 < blk) (n : Nat) :
    ∀ f : Bytes, f.length ≤ n → (streamChunks blk hblk n f).2 = [] := by
  induction n using Nat.strongRecOn with
  | _ n ih =>
    intro f hf
    by_cases h0 : n = 0
    · subst h0
      rw [streamChunks]; simpa using hf
    · rw [streamChunks, dif_neg h0]
      exact ih _ (by omega) _ (by simp; omega)

theorem readRecords_nil (env : Env) (fuel : Nat) (phase : Phase) :
    (readRecords env fuel phase []).2 ≠ none := by
  cases fuel with
  | zero => simp [readRecords]
  | succ n => simp [readRecords, readRecord]

theorem readRecords_error (env : Env) (fuel : Nat) (phase : Phase) (f : Bytes) (e : PyErr)
    (h : readRecord env phase f = .error e) : (readRecords env fuel phase f).2 ≠ none := by
  cases fuel with
  | zero => simp [readRecords]
  | succ n => simp [readRecords, h]

theorem readRecords_some (env : Env) (fuel : Nat) (phase phase' : Phase) (f f' : Bytes) (r : Rec)
    (h : readRecord env phase f = .ok (some r, phase', f'))
    (h' : ∀ fuel, (readRecords env fuel phase' f').2 ≠ none) :
    (readRecords env fuel phase f).2 ≠ none := by
  cases fuel with
  | zero => simp [readRecords]
  | succ n => simp [readRecords, h, h' n]

theorem unpack_take (k n j : Nat) (h : n < 256 ^ k) (rest : Bytes) :
    unpack k ((le k n ++ rest).take j) =
      if j < k then .error .struct else .ok (n, rest.take (j - k)) := by
  split
  · rename_i hj
    exact unpack_short k _ (by simp; omega)
  · rename_i hj
    rw [List.take_append, le_length, List.take_of_length_le (by rw [le_length]; omega)]
    exact unpack_le k n h _

theorem cut_meta (env : Env) (m : MetaRec) (hv : m.Valid) (k : Nat) (hk : k < m.encode.length)
    (fuel : Nat) : (readRecords env fuel .metadata (m.encode.take k)).2 ≠ none := by
  have e4 : (256:Nat) ^ 4 = 2 ^ 32 := by norm_num
  have e8 : (256:Nat) ^ 8 = 2 ^ 64 := by norm_num
  cases k with
  | zero => simpa using readRecords_nil env fuel .metadata
  | succ k =>
    have key : ∀ b : Bytes, b.length < 2 ^ 31 → (∀ x ∈ b, x < 128) → k < (le 4 b.length ++ b).length →
        (∃ e, readFbytes ((le 4 b.length ++ b).take k) = .error e) ∨
        (∃ n, readFbytes ((le 4 b.length ++ b).take k) = .ok (n, [])) := by
      intro b hb ha hk
      unfold readFbytes
      rw [unpack_take 4 b.length k (by omega)]
      split
      · left; rename_i e he; split at he
        · exact ⟨e, rfl⟩
        · cases he
      · rename_i n f he
        split at he
        · cases he
        · simp only [Except.ok.injEq, Prod.mk.injEq] at he
          obtain ⟨rfl, rfl⟩ := he
          rw [if_pos hb]
          have hlen : (b.take (k - 4)).length ≤ b.length := by simp
          split
          · right; exact ⟨_, by rw [List.drop_eq_nil_of_le hlen]⟩
          · left; exact ⟨_, rfl⟩
    cases m with
    | fromSnap b =>
      simp only [MetaRec.encode, List.take_succ_cons] at hk ⊢
      rcases key b hv.1 hv.2 (by simpa using hk) with ⟨e, he⟩ | ⟨n, hn⟩
      · exact readRecords_error env fuel _ _ e (by simp [readRecord, he])
      · exact readRecords_some env fuel .metadata .metadata _ [] (.fromSnap n)
          (by simp [readRecord, hn]) (fun f => readRecords_nil env f _)
    | toSnap b =>
      simp only [MetaRec.encode, List.take_succ_cons] at hk ⊢
      rcases key b hv.1 hv.2 (by simpa using hk) with ⟨e, he⟩ | ⟨n, hn⟩
      · exact readRecords_error env fuel _ _ e (by simp [readRecord, he])
      · exact readRecords_some env fuel .metadata .metadata _ [] (.toSnap n)
          (by simp [readRecord, hn]) (fun f => readRecords_nil env f _)
    | size n =>
      simp only [MetaRec.encode, List.take_succ_cons, List.length_cons, le_length] at hk ⊢
      have := unpack_short 8 ((le 8 n).take k) (by simp; omega)
      exact readRecords_error env fuel _ _ .struct (by simp [readRecord, this])

theorem cut_data (env : Env) (phase : Phase) (r : DataRec) (hv : r.Valid) (k : Nat)
    (hk : k < r.encode.length) (fuel : Nat) :
    (readRecords env fuel phase (r.encode.take k)).2 ≠ none := by
  have e8 : (256:Nat) ^ 8 = 2 ^ 64 := by norm_num
  cases k with
  | zero => simpa using readRecords_nil env fuel phase
  | succ k =>
    cases r with
    | zero o l =>
      simp only [DataRec.Valid] at hv
      simp only [DataRec.encode, List.take_succ_cons, List.length_cons, List.length_append, le_length] at hk ⊢
      have h1 := unpack_take 8 o k (by omega) (le 8 l)
      have h2 := unpack_short 8 ((le 8 l).take (k - 8)) (by simp [le_length]; omega)
      refine readRecords_error env fuel _ _ .struct ?_
      simp only [readRecord]
      rw [h1]
      by_cases h8 : k < 8
      · simp [h8]
      · simp [h8, h2]
    | data o p =>
      simp only [DataRec.Valid] at hv
      simp only [DataRec.encode, List.take_succ_cons, List.length_cons, List.length_append, le_length,
        List.append_assoc] at hk ⊢
      have h1 := unpack_take 8 o k (by omega) (le 8 p.length ++ p)
      have h2 := unpack_take 8 p.length (k - 8) (by omega) p
      by_cases h8 : k < 8
      · refine readRecords_error env fuel _ _ .struct ?_
        simp [readRecord, h1, h8]
      · by_cases h16 : k - 8 < 8
        · refine readRecords_error env fuel _ _ .struct ?_
          simp [readRecord, h1, h8, h2, h16]
        · rw [if_neg h8] at h1
          rw [if_neg h16] at h2
          refine readRecords_some env fuel _ .data _
            (streamChunks env.blk env.blk_pos p.length (p.take (k - 8 - 8))).2
            (.data o p.length (streamChunks env.blk env.blk_pos p.length (p.take (k - 8 - 8))).1)
            (by simp [readRecord, h1, h2]) (fun f => ?_)
          rw [streamChunks_short _ _ _ _ (by simp)]
          exact readRecords_nil env f _

theorem cut_datas (env : Env) (l : List DataRec) (hv : ∀ r ∈ l, r.Valid) :
    ∀ (phase : Phase) (k : Nat), k < (encDatas l ++ [101]).length → ∀ fuel,
      (readRecords env fuel phase ((encDatas l ++ [101]).take k)).2 ≠ none := by
  induction l with
  | nil =>
    intro phase k hk fuel
    simp only [encDatas, List.map_nil, List.flatten_nil, List.nil_append, List.length_singleton] at hk
    have : k = 0 := by omega
    subst this
    simpa using readRecords_nil env fuel phase
  | cons r l ih =>
    intro phase k hk fuel
    have e : encDatas (r :: l) ++ [101] = r.encode ++ (encDatas l ++ [101]) := by
      simp [encDatas, List.append_assoc]
    rw [e] at hk ⊢
    by_cases hc : k < r.encode.length
    · rw [List.take_append_of_le_length (by omega)]
      exact cut_data env phase r (hv r (by simp)) k hc fuel
    · rw [List.take_append, List.take_of_length_le (by omega)]
      refine readRecords_some env fuel phase .data _ _ _ (readRecord_data env phase r (hv r (by simp)) _)
        (fun f => ih (fun x hx => hv x (by simp [hx])) .data _ ?_ f)
      rw [List.length_append] at hk
      omega

theorem cut_metas (env : Env) (l : List MetaRec) (hv : ∀ r ∈ l, r.Valid) (rest : Bytes)
    (hrest : ∀ k, k < rest.length → ∀ fuel, (readRecords env fuel .metadata (rest.take k)).2 ≠ none) :
    ∀ (k : Nat), k < (encMetas l ++ rest).length → ∀ fuel,
      (readRecords env fuel .metadata ((encMetas l ++ rest).take k)).2 ≠ none := by
  induction l with
  | nil => simpa [encMetas] using hrest
  | cons r l ih =>
    intro k hk fuel
    have e : encMetas (r :: l) ++ rest = r.encode ++ (encMetas l ++ rest) := by
      simp [encMetas, List.append_assoc]
    rw [e] at hk ⊢
    by_cases hc : k < r.encode.length
    · rw [List.take_append_of_le_length (by omega)]
      exact cut_meta env r (hv r (by simp)) k hc fuel
    · rw [List.take_append, List.take_of_length_le (by omega)]
      refine readRecords_some env fuel .metadata .metadata _ _ _ (readRecord_meta env r (hv r (by simp)) _)
        (fun f => ih (fun x hx => hv x (by simp [hx])) _ ?_ f)
      rw [List.length_append] at hk
      omega

theorem decode_cut (env : Env) (d : Diff) (hv : d.Valid) (k : Nat) (hk : k < d.encode.length) :
    (decode env (d.encode.take k)).2 ≠ none := by
  unfold decode
  have hh : header.length = 12 := rfl
  split
  · simp
  · rename_i hne
    have hk12 : 12 ≤ k := by
      by_contra hlt
      apply hne
      intro heq
      have := congrArg List.length heq
      rw [List.length_take, List.length_take, hh] at this
      omega
    have e : d.encode = header ++ (encMetas d.metas ++ (encDatas d.datas ++ [101])) := by
      simp [Diff.encode, List.append_assoc]; rfl
    rw [e] at hk ⊢
    rw [List.take_append, List.take_of_length_le (by omega), List.drop_left]
    rw [List.length_append] at hk
    exact cut_metas env d.metas hv.1 _ (fun k hk f => cut_datas env d.datas hv.2 .metadata k hk f) _
      (by omega) _

/-- Appending a bad byte after complete records is an error. -/
theorem decode_bad_type (env : Env) (d : Diff) (hv : d.Valid) (b : UInt8) (rest : Bytes)
    (hb : b ∉ ([102, 116, 115, 119, 122, 101] : List UInt8)) :
    (decode env (diffHeader ++ encMetas d.metas ++ encDatas d.datas ++ b :: rest)).2 ≠ none := by
  obtain ⟨fuel, _, he⟩ := decode_datas env d hv (b :: rest)
  rw [he]
  simp only [List.mem_cons, List.not_mem_nil, or_false, not_or] at hb
  exact readRecords_error env fuel _ _ .value (by simp [readRecord, hb])

/-- Metadata after data is an error. -/
theorem decode_late_meta (env : Env) (d : Diff) (hv : d.Valid) (hne : d.datas ≠ []) (b : UInt8)
    (rest : Bytes) (hb : b ∈ ([102, 116, 115] : List UInt8)) :
    (decode env (diffHeader ++ encMetas d.metas ++ encDatas d.datas ++ b :: rest)).2 ≠ none := by
  obtain ⟨fuel, _, he⟩ := decode_datas env d hv (b :: rest)
  rw [he, if_neg hne]
  simp only [List.mem_cons, List.not_mem_nil, or_false] at hb
  refine readRecords_error env fuel _ _ .assertion ?_
  rcases hb with rfl | rfl | rfl <;> simp [readRecord]

/-- The records of a stream that starts with well-formed metadata include it. -/
theorem decode_meta_mem (env : Env) (l : List MetaRec) (hv : ∀ r ∈ l, r.Valid) (rest : Bytes)
    (m : MetaRec) (hm : m ∈ l) : MetaRec.rec m ∈ (decode env (diffHeader ++ encMetas l ++ rest)).1 := by
  obtain ⟨fuel, _, he⟩ := decode_metas env l hv rest
  rw [he]
  exact List.mem_append_left _ (List.mem_map_of_mem hm)

theorem applyRecs_error (env : Env) (f t : Bytes) (l : List Rec) (r : Rec) (hr : r ∈ l)
    (h : ∀ s, ∃ e, (applyRec env f t s r).1 = .error e) (s : S) :
    (applyRecs env f t l s).1 ≠ .ok () := by
  induction l generalizing s with
  | nil => simp at hr
  | cons x l ih =>
    unfold applyRecs
    cases hx : applyRec env f t s x with
    | mk a s' =>
      cases a with
      | error e => simp
      | ok _ =>
        rcases List.mem_cons.1 hr with rfl | hr
        · obtain ⟨e, he⟩ := h s
          rw [hx] at he; simp at he
        · exact ih hr s'

theorem integrate_decode_error (env : Env) (stream f t : Bytes) (s : S)
    (h : (decode env stream).2 ≠ none) : (integrate env stream f t s).1 ≠ .ok () := by
  unfold integrate
  dsimp only
  split
  · simp
  · split
    · simp
    · rename_i hn; exact absurd hn h

theorem integrate_rec_error (env : Env) (stream f t : Bytes) (s : S) (r : Rec)
    (hr : r ∈ (decode env stream).1) (h : ∀ s, ∃ e, (applyRec env f t s r).1 = .error e) :
    (integrate env stream f t s).1 ≠ .ok () := by
  have := applyRecs_error env f t _ r hr h s
  unfold integrate
  dsimp only
  split
  · simp
  · rename_i heq; rw [heq] at this; exact absurd rfl this

end Verif.Diff
