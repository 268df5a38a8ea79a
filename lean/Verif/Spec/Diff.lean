import Verif.Model.Base
/-!
# Specification: the RBD diff format v1 and what a diff says

Independent of the decoder model.  A diff is a list of metadata records followed by a list of data
records; `encode` is the byte format (header, little-endian integers, end marker).
-/
namespace Verif.Spec
open Verif

/-- Little-endian encoding of a number in `k` bytes. -/
def le : Nat → Nat → Bytes
  | 0, _ => []
  | k + 1, n => UInt8.ofNat (n % 256) :: le k (n / 256)

/-- A metadata record: snapshot names or the image size. -/
inductive MetaRec
  | fromSnap (name : Bytes)
  | toSnap (name : Bytes)
  | size (n : Nat)
deriving DecidableEq, Repr

/-- A data record: new content, or a zeroed region. -/
inductive DataRec
  | data (start : Nat) (payload : Bytes)
  | zero (start : Nat) (length : Nat)
deriving DecidableEq, Repr

/-- A diff. -/
structure Diff where
  metas : List MetaRec
  datas : List DataRec
deriving DecidableEq, Repr

/-- Byte format of a metadata record: type letter; names with a 32 bit length. -/
def MetaRec.encode : MetaRec → Bytes
  | .fromSnap b => 102 :: (le 4 b.length ++ b)
  | .toSnap b => 116 :: (le 4 b.length ++ b)
  | .size n => 115 :: le 8 n

/-- Byte format of a data record: type letter, 64 bit offset and length, payload. -/
def DataRec.encode : DataRec → Bytes
  | .data start payload => 119 :: (le 8 start ++ le 8 payload.length ++ payload)
  | .zero start length => 122 :: (le 8 start ++ le 8 length)

/-- The header line "rbd diff v1\n". -/
def diffHeader : Bytes := [114, 98, 100, 32, 100, 105, 102, 102, 32, 118, 49, 10]

/-- Concatenated metadata records. -/
def encMetas (l : List MetaRec) : Bytes := (l.map MetaRec.encode).flatten
/-- Concatenated data records. -/
def encDatas (l : List DataRec) : Bytes := (l.map DataRec.encode).flatten

/-- Byte format of a diff; 101 is the end marker "e". -/
def Diff.encode (d : Diff) : Bytes := diffHeader ++ encMetas d.metas ++ encDatas d.datas ++ [101]

/-- The values fit into their fields; names are ASCII. -/
def MetaRec.Valid : MetaRec → Prop
  | .fromSnap b => b.length < 2 ^ 31 ∧ ∀ x ∈ b, x < 128
  | .toSnap b => b.length < 2 ^ 31 ∧ ∀ x ∈ b, x < 128
  | .size n => n < 2 ^ 64

/-- The values fit into their fields. -/
def DataRec.Valid : DataRec → Prop
  | .data start payload => start < 2 ^ 64 ∧ payload.length < 2 ^ 64
  | .zero start length => start < 2 ^ 64 ∧ length < 2 ^ 64

/-- A well-formed diff. -/
def Diff.Valid (d : Diff) : Prop := (∀ m ∈ d.metas, m.Valid) ∧ ∀ r ∈ d.datas, r.Valid

/-- The positions a record is about. -/
def DataRec.Covers : DataRec → Nat → Prop
  | .data start payload, p => start ≤ p ∧ p < start + payload.length
  | .zero start length, p => start ≤ p ∧ p < start + length

/-- What the record says is true of `new`. -/
def DataRec.TrueOf (new : Bytes) : DataRec → Prop
  | .data start payload => start + payload.length ≤ new.length ∧
      ∀ i, i < payload.length → new[start + i]? = payload[i]?
  | .zero start length => 0 < length ∧ start + length ≤ new.length ∧
      ∀ i, i < length → new[start + i]? = some 0

/-- `d` is a diff from `old` (snapshot `f`) to `new` (snapshot `t`): it names the right snapshots and
the new size, everything it says is true of `new`, and it covers every position of `new` that does
not already have the right content in `old` extended by zeros. -/
structure Diff.Describes (d : Diff) (f t : Bytes) (old new : Bytes) : Prop where
  from_ : ∀ b, MetaRec.fromSnap b ∈ d.metas → b = f
  to_ : ∀ b, MetaRec.toSnap b ∈ d.metas → b = t
  size : MetaRec.size new.length ∈ d.metas
  size_only : ∀ n, MetaRec.size n ∈ d.metas → n = new.length
  true_ : ∀ r ∈ d.datas, r.TrueOf new
  covers : ∀ p, p < new.length → (old[p]?).getD 0 ≠ (new[p]?).getD 0 → ∃ r ∈ d.datas, r.Covers p

end Verif.Spec
