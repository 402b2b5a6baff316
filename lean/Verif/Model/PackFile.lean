import Verif.Model.Basic
/-
Model of /repo/include/tiles/db/pack_file.h.

`pack_record` has two size_t members (pack_file.h:14-29); its object representation is 16 bytes.
The file is an osmium `mmap_vector_file<char>` (external): a shared mapping plus a size.
  * growing zero-fills the new elements, shrinking only changes the size (old bytes stay in the file),
  * opening takes the whole file and then drops trailing zero elements (`shrink_to_fit`).
Simplification: capacity is not rounded up; the extra capacity only ever holds zero bytes, which
opening drops again.  Offsets are naturals; the 64-bit wrap-around in `get` is modelled.
-/
namespace Tiles

/-- pack_file.h:14-29 -/
structure PackRecord where
  offset : Nat
  size : Nat
  deriving Repr, DecidableEq, Inhabited

/-- pack_file.h:26 -/
def PackRecord.endOffset (r : PackRecord) : Nat := r.offset + r.size

/-- members fit into size_t -/
def PackRecord.Fits (r : PackRecord) : Prop := r.offset < 2 ^ 64 ∧ r.size < 2 ^ 64

instance (r : PackRecord) : Decidable r.Fits := by unfold PackRecord.Fits; infer_instance

/-- bin_utils.h:7-10 `append<pack_record>`: object representation of one record -/
def recordBytes (r : PackRecord) : Bytes := leBytes 8 r.offset ++ leBytes 8 r.size

/-- pack_file.h:37-45 `pack_records_serialize` (pack_file.h:31-35 is the one-element case) -/
def packRecordsSerialize (rs : List PackRecord) : Bytes := rs.flatMap recordBytes

/-- pack_file.h:47-51 `pack_records_update` -/
def packRecordsUpdate (dat : Bytes) (r : PackRecord) : Res Bytes := do
  verify (dat.length % 16 == 0)
  return dat ++ recordBytes r

/-- bin_utils.h:29-32 `read_nth<pack_record>(data, i)` -/
def readNthRecord (dat : Bytes) (i : Nat) : PackRecord :=
  ⟨leNat ((dat.drop (i * 16)).take 8), leNat ((dat.drop (i * 16 + 8)).take 8)⟩

/-- pack_file.h:53-64 `pack_records_deserialize`; pack_records_foreach (pack_file.h:66-73) visits
the same sequence. -/
def packRecordsDeserialize (dat : Bytes) : Res (List PackRecord) := do
  verify (dat.length % 16 == 0)
  return (List.range (dat.length / 16)).map (readNthRecord dat)

/-- the pack file: mapped bytes and the current vector size (pack_file.h:157-158) -/
structure PackFile where
  data : Bytes
  size : Nat
  deriving Repr, DecidableEq

/-- representation invariant of the vector: the size does not exceed the mapping -/
def PackFile.WF (f : PackFile) : Prop := f.size ≤ f.data.length

instance (f : PackFile) : Decidable f.WF := by unfold PackFile.WF; infer_instance

/-- memcpy into the mapping -/
def overwrite (d : Bytes) (off : Nat) (b : Bytes) : Bytes :=
  d.take off ++ b ++ d.drop (off + b.length)

def zeros (n : Nat) : Bytes := List.replicate n 0

namespace PackFile

/-- `mmap_vector::resize` (pack_file.h:130, 142, 150): growing fills with zeros. -/
def resize (f : PackFile) (n : Nat) : PackFile :=
  if n ≤ f.size then { f with size := n }
  else
    let mapped := f.data ++ zeros (n - f.data.length)
    ⟨overwrite mapped f.size (zeros (n - f.size)), n⟩

/-- pack_file.h:132-138 `get`.  The sum is a size_t sum and can wrap around; a view outside the
mapping is undefined behaviour for whoever reads it. -/
def get (f : PackFile) (r : PackRecord) : Res Bytes := do
  verify (decide (r.offset < f.size) && decide ((r.offset + r.size) % 2 ^ 64 ≤ f.size))
  if r.offset + r.size ≤ f.size then .ok ((f.data.drop r.offset).take r.size) else .ub

/-- pack_file.h:148-153 `insert` -/
def insert (f : PackFile) (offset : Nat) (dat : Bytes) : PackFile × PackRecord :=
  let f' := f.resize (max f.size (offset + dat.length))
  (⟨overwrite f'.data offset dat, f'.size⟩, ⟨offset, dat.length⟩)

/-- pack_file.h:155 `append` -/
def append (f : PackFile) (dat : Bytes) : PackFile × PackRecord := f.insert f.size dat

/-- pack_file.h:140-146 `move`; `memmove` copies as if through a temporary buffer; reading outside
the mapping is undefined. -/
def move (f : PackFile) (offset : Nat) (r : PackRecord) : Res (PackFile × PackRecord) :=
  let f' := f.resize (max f.size (offset + r.size))
  if r.offset + r.size ≤ f'.data.length then
    .ok (⟨overwrite f'.data offset ((f'.data.drop r.offset).take r.size), f'.size⟩, ⟨offset, r.size⟩)
  else .ub

/-- pack_file.h:114-120, the destructor: make sure that the last byte is not zero. -/
def close (f : PackFile) : PackFile :=
  if f.size = 0 ∨ f.data[f.size - 1]? = some 0 then
    let f' := f.resize (f.size + 1)
    ⟨overwrite f'.data f.size [97], f'.size⟩          -- push_back('a')
  else f

/-- number of elements left after dropping trailing zeros -/
def trimmedLength (d : Bytes) : Nat := (d.reverse.dropWhile (· == 0)).length

/-- pack_file.h:97-112: opening maps the whole file, then `shrink_to_fit` drops trailing zeros. -/
def reopen (f : PackFile) : PackFile := ⟨f.data, trimmedLength f.data⟩

end PackFile
end Tiles
