import Verif.Model.Diff
import Verif.Spec.Diff
import Verif.Proofs.ListLemmas
import Mathlib.Tactic.Ring
/-! # Decoding encoded diffs -/
namespace Verif.Diff
open Verif Verif.Chunked Verif.Spec

theorem le_length (k n : Nat) : (le k n).length = k := by
  induction k generalizing n with
  | zero => rfl
  | succ k ih => simp [le, ih]

theorem unle_le (k n : Nat) (h : n < 256 ^ k) : unle (le k n) = n := by
  induction k generalizing n with
  | zero => simp at h; subst h; rfl
  | succ k ih =>
    have hd : n / 256 < 256 ^ k := by
      rw [Nat.pow_succ] at h
      exact Nat.div_lt_of_lt_mul (by rw [Nat.mul_comm]; exact h)
    simp only [le, unle, ih _ hd]
    have : (UInt8.ofNat (n % 256)).toNat = n % 256 := by
      simp
    rw [this]; omega

theorem unpack_le (k n : Nat) (h : n < 256 ^ k) (rest : Bytes) :
    unpack k (le k n ++ rest) = .ok (n, rest) := by
  unfold unpack
  have h1 : (le k n ++ rest).take k = le k n := List.take_left' (le_length k n)
  have h2 : (le k n ++ rest).drop k = rest := List.drop_left' (le_length k n)
  rw [h1, h2, le_length, if_pos rfl, unle_le k n h]

theorem unpack_short (k : Nat) (f : Bytes) (h : f.length < k) : unpack k f = .error .struct := by
  unfold unpack
  rw [if_neg]
  simp; omega

/-- The record a decoder is expected to yield for an encoded one. -/
def MetaRec.rec : MetaRec → Rec
  | .fromSnap b => .fromSnap b
  | .toSnap b => .toSnap b
  | .size n => .size n

/-- Pieces of at most `blk` bytes. -/
def pieces (blk : Nat) (hblk : 0 < blk) (d : Bytes) : List Bytes :=
  (streamChunks blk hblk d.length d).1

theorem streamChunks_append (blk : Nat) (hblk : 0 < blk) (n : Nat) :
    ∀ (d rest : Bytes), d.length = n → streamChunks blk hblk n (d ++ rest) = (pieces blk hblk d, rest) := by
  unfold pieces
  induction n using Nat.strongRecOn with
  | _ n ih =>
    intro d rest hd
    by_cases h0 : n = 0
    · subst h0
      have : d = [] := List.length_eq_zero_iff.1 hd
      subst this
      rw [streamChunks]; simp [streamChunks]
    · rw [streamChunks, dif_neg h0]
      conv_rhs => rw [streamChunks]
      rw [dif_neg (by omega : ¬ d.length = 0)]
      dsimp only
      have hk : min blk n ≤ d.length := by omega
      rw [List.take_append_of_le_length hk, List.drop_append_of_le_length hk]
      have hlt : n - min blk n < n := by omega
      have hl : (d.drop (min blk n)).length = n - min blk n := by simp [hd]
      rw [ih _ hlt _ rest hl, hd]
      rw [← hl]

theorem pieces_flatten (blk : Nat) (hblk : 0 < blk) (d : Bytes) :
    (pieces blk hblk d).flatten = d ∧ ∀ x ∈ pieces blk hblk d, x.length ≤ blk ∧ x ≠ [] := by
  unfold pieces
  have : ∀ n, ∀ d : Bytes, d.length = n → (streamChunks blk hblk n d).1.flatten = d ∧
      ∀ x ∈ (streamChunks blk hblk n d).1, x.length ≤ blk ∧ x ≠ [] := by
    intro n
    induction n using Nat.strongRecOn with
    | _ n ih =>
      intro d hd
      by_cases h0 : n = 0
      · subst h0
        have : d = [] := List.length_eq_zero_iff.1 hd
        subst this
        rw [streamChunks]; simp
      · rw [streamChunks, dif_neg h0]
        dsimp only
        have hlt : n - min blk n < n := by omega
        have hl : (d.drop (min blk n)).length = n - min blk n := by simp [hd]
        obtain ⟨i1, i2⟩ := ih _ hlt _ hl
        refine ⟨by rw [List.flatten_cons, i1, List.take_append_drop], ?_⟩
        intro x hx
        rcases List.mem_cons.1 hx with rfl | hx
        · refine ⟨by simp, ?_⟩
          intro he
          have := congrArg List.length he
          rw [List.length_take] at this
          simp only [List.length_nil] at this; omega
        · exact i2 x hx
  exact this _ d rfl

/-- The record a decoder is expected to yield for an encoded one. -/
def DataRec.rec (env : Env) : DataRec → Rec
  | .data start payload => .data start payload.length (pieces env.blk env.blk_pos payload)
  | .zero start length => .zero start length

theorem all_ascii {b : Bytes} (h : ∀ x ∈ b, x < 128) : b.all (· < 128) = true := by
  rw [List.all_eq_true]; intro x hx; simpa using h x hx

theorem readFbytes_enc (b rest : Bytes) (h : b.length < 2 ^ 31) (ha : ∀ x ∈ b, x < 128) :
    readFbytes (le 4 b.length ++ (b ++ rest)) = .ok (b, rest) := by
  unfold readFbytes
  have e : (256:Nat) ^ 4 = 2 ^ 32 := by norm_num
  rw [unpack_le 4 _ (by omega)]
  dsimp only
  rw [if_pos h, List.take_left, List.drop_left, if_pos (all_ascii ha)]

theorem readRecord_meta (env : Env) (m : MetaRec) (hv : m.Valid) (rest : Bytes) :
    readRecord env .metadata (m.encode ++ rest) = .ok (some (MetaRec.rec m), .metadata, rest) := by
  cases m with
  | fromSnap b =>
    simp only [MetaRec.encode, List.cons_append, readRecord]
    simp [readFbytes_enc b rest hv.1 hv.2, MetaRec.rec]
  | toSnap b =>
    simp only [MetaRec.encode, List.cons_append, readRecord]
    simp [readFbytes_enc b rest hv.1 hv.2, MetaRec.rec]
  | size n =>
    simp only [MetaRec.encode, List.cons_append, readRecord]
    rw [unpack_le 8 n (by have : (256:Nat) ^ 8 = 2 ^ 64 := by norm_num
                          simp only [MetaRec.Valid] at hv; omega)]
    simp [MetaRec.rec]

theorem readRecord_data (env : Env) (phase : Phase) (r : DataRec) (hv : r.Valid) (rest : Bytes) :
    readRecord env phase (r.encode ++ rest) = .ok (some (DataRec.rec env r), .data, rest) := by
  have e : (256:Nat) ^ 8 = 2 ^ 64 := by norm_num
  cases r with
  | data o p =>
    simp only [DataRec.Valid] at hv
    simp only [DataRec.encode, List.cons_append, readRecord, List.append_assoc]
    rw [unpack_le 8 o (by omega)]
    dsimp only
    rw [unpack_le 8 p.length (by omega)]
    dsimp only
    rw [streamChunks_append _ _ _ p rest rfl]
    simp [DataRec.rec]
  | zero o l =>
    simp only [DataRec.Valid] at hv
    simp only [DataRec.encode, List.cons_append, readRecord, List.append_assoc]
    rw [unpack_le 8 o (by omega)]
    dsimp only
    rw [unpack_le 8 l (by omega)]
    simp [DataRec.rec]

/-- Reading a sequence of encoded data records, then whatever follows. -/
theorem readRecords_datas (env : Env) (l : List DataRec) (hv : ∀ r ∈ l, r.Valid) (fuel : Nat)
    (phase : Phase) (rest : Bytes) :
    readRecords env (l.length + fuel) phase (encDatas l ++ rest) =
      (l.map (DataRec.rec env) ++ (readRecords env fuel (if l = [] then phase else .data) rest).1,
        (readRecords env fuel (if l = [] then phase else .data) rest).2) := by
  induction l generalizing phase with
  | nil => simp [encDatas]
  | cons r l ih =>
    have e : (r :: l).length + fuel = (l.length + fuel) + 1 := by simp; omega
    have e2 : encDatas (r :: l) ++ rest = r.encode ++ (encDatas l ++ rest) := by
      simp [encDatas, List.append_assoc]
    rw [e, e2, readRecords, readRecord_data env phase r (hv r (by simp))]
    dsimp only
    rw [ih (fun x hx => hv x (by simp [hx])) .data]
    have : (if l = [] then Phase.data else Phase.data) = Phase.data := by split <;> rfl
    rw [this]
    simp

theorem readRecords_metas (env : Env) (l : List MetaRec) (hv : ∀ r ∈ l, r.Valid) (fuel : Nat)
    (rest : Bytes) :
    readRecords env (l.length + fuel) .metadata (encMetas l ++ rest) =
      (l.map MetaRec.rec ++ (readRecords env fuel .metadata rest).1,
        (readRecords env fuel .metadata rest).2) := by
  induction l with
  | nil => simp [encMetas]
  | cons r l ih =>
    have e : (r :: l).length + fuel = (l.length + fuel) + 1 := by simp; omega
    have e2 : encMetas (r :: l) ++ rest = r.encode ++ (encMetas l ++ rest) := by
      simp [encMetas, List.append_assoc]
    rw [e, e2, readRecords, readRecord_meta env r (hv r (by simp))]
    dsimp only
    rw [ih (fun x hx => hv x (by simp [hx]))]
    simp

theorem MetaRec.encode_pos (m : MetaRec) : 0 < m.encode.length := by cases m <;> simp [MetaRec.encode]
theorem DataRec.encode_pos (m : DataRec) : 0 < m.encode.length := by cases m <;> simp [DataRec.encode]

theorem encMetas_length (l : List MetaRec) : l.length ≤ (encMetas l).length := by
  induction l with
  | nil => simp
  | cons r l ih =>
    have := MetaRec.encode_pos r
    simp only [encMetas, List.map_cons, List.flatten_cons, List.length_append, List.length_cons] at ih ⊢
    omega

theorem encDatas_length (l : List DataRec) : l.length ≤ (encDatas l).length := by
  induction l with
  | nil => simp
  | cons r l ih =>
    have := DataRec.encode_pos r
    simp only [encDatas, List.map_cons, List.flatten_cons, List.length_append, List.length_cons] at ih ⊢
    omega

/-- A stream that starts with encoded metadata records. -/
theorem decode_metas (env : Env) (l : List MetaRec) (hv : ∀ r ∈ l, r.Valid) (rest : Bytes) :
    ∃ fuel, rest.length < fuel ∧
      decode env (diffHeader ++ encMetas l ++ rest) =
        (l.map MetaRec.rec ++ (readRecords env fuel .metadata rest).1,
          (readRecords env fuel .metadata rest).2) := by
  unfold decode
  have h1 : (diffHeader ++ encMetas l ++ rest).take header.length = header := by
    rw [List.append_assoc]; exact List.take_left
  have h2 : (diffHeader ++ encMetas l ++ rest).drop header.length = encMetas l ++ rest := by
    rw [List.append_assoc]; exact List.drop_left
  rw [h1, h2, if_neg (by simp)]
  have hl := encMetas_length l
  have hh : diffHeader.length = 12 := rfl
  have hlen : (diffHeader ++ encMetas l ++ rest).length = 12 + (encMetas l).length + rest.length := by
    simp only [List.length_append, hh]
  have e : (diffHeader ++ encMetas l ++ rest).length + 1 =
      l.length + ((diffHeader ++ encMetas l ++ rest).length + 1 - l.length) := by omega
  refine ⟨(diffHeader ++ encMetas l ++ rest).length + 1 - l.length, by omega, ?_⟩
  rw [e, readRecords_metas env l hv]
  simp

/-- A stream that starts with encoded metadata and data records. -/
theorem decode_datas (env : Env) (d : Diff) (hv : d.Valid) (rest : Bytes) :
    ∃ fuel, rest.length < fuel ∧
      decode env (diffHeader ++ encMetas d.metas ++ encDatas d.datas ++ rest) =
        (d.metas.map MetaRec.rec ++ d.datas.map (DataRec.rec env) ++
            (readRecords env fuel (if d.datas = [] then .metadata else .data) rest).1,
          (readRecords env fuel (if d.datas = [] then .metadata else .data) rest).2) := by
  obtain ⟨fuel, hf, he⟩ := decode_metas env d.metas hv.1 (encDatas d.datas ++ rest)
  have hl := encDatas_length d.datas
  simp only [List.length_append] at hf
  obtain ⟨k, rfl⟩ : ∃ k, fuel = d.datas.length + k := ⟨fuel - d.datas.length, by omega⟩
  refine ⟨k, by omega, ?_⟩
  rw [List.append_assoc (diffHeader ++ _), he, readRecords_datas env d.datas hv.2]
  simp

end Verif.Diff
