import Verif.Model.PackFile
/-
Two processes with the same pack file: `tiles-server` keeps its `pack_handle` (pack_file.h:96-159) for as long as it runs (server.cc:188),
`tiles-import` has its own (import.cc:78).  Both map the same file (the mapping is shared), but each `mmap_vector_file` has its own size:
it is set when the file is opened and changes only by what this process does.

Simplification: as in Model/PackFile the capacity is not rounded up.  The file can therefore be longer than `data` here, by zero bytes
only; an access behind the last page of the file is a bus error, which is modelled as `ub` for every access behind `data`.
-/
namespace Tiles

/-- pack_file.h:127-138 in a process whose vector has `size` elements, when the file holds `data` -/
def seenBy (data : Bytes) (size : Nat) : PackFile := ⟨data, size⟩

/-- pack_file.h:132-138 `get`, and reading what it returns -/
def readShared (data : Bytes) (size : Nat) (r : PackRecord) : Res Bytes := do
  let b ← (seenBy data size).get r
  if r.offset + r.size ≤ data.length then return b else .ub

/-- pack_file.h:97-112: the size of a vector that is opened when the file holds `data` -/
def openedSize (data : Bytes) : Nat := PackFile.trimmedLength data

/-- pack_file.h:114-120 `~pack_handle` in such a process: what the file holds afterwards -/
def exitShared (data : Bytes) (size : Nat) : Res Bytes :=
  if data.length < size then .ub else .ok (seenBy data size).close.data

/-- pack_file.h:85-94 `clear_pack_file`: the file is truncated -/
def clearShared (_data : Bytes) : Bytes := []

end Tiles
