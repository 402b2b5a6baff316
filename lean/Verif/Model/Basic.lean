/-
Common vocabulary of the model.

* `Bytes`  — contents of a `std::string` / `std::string_view` (a list of octets).
* `Res`    — outcome of a C++ call: normal return, exception, or undefined
             behaviour (kept distinct: `ub` is never assumed away).
* `leBytes`/`leNat` — the little-endian object representation that
  include/tiles/bin_utils.h:7-30 (`append`, `write`, `read`, `read_nth`) copies
  with `memcpy`.  Simplification: the host is assumed little-endian.
-/
namespace Tiles

/-- contents of a `std::string` -/
abbrev Bytes := List UInt8

/-- Outcome of a C++ call.  `throw_` stands for any exception
(`utl::verify` failing, `.at()` out of range, protozero exceptions). -/
inductive Res (α : Type) where
  | ok (a : α)
  | throw_
  | ub
  deriving Repr, DecidableEq

namespace Res
variable {α β : Type}

/-- sequencing of C++ statements -/
def bind : Res α → (α → Res β) → Res β
  | ok a, f => f a
  | throw_, _ => throw_
  | ub, _ => ub

instance : Monad Res where
  pure := ok
  bind := bind

@[simp] theorem ok_bind (a : α) (f : α → Res β) : (ok a >>= f) = f a := rfl
@[simp] theorem throw_bind (f : α → Res β) : ((throw_ : Res α) >>= f) = throw_ := rfl
@[simp] theorem ub_bind (f : α → Res β) : ((ub : Res α) >>= f) = ub := rfl
@[simp] theorem pure_eq (a : α) : (pure a : Res α) = ok a := rfl

theorem bind_eq_ok {x : Res α} {f : α → Res β} {b : β} :
    (x >>= f) = ok b ↔ ∃ a, x = ok a ∧ f a = ok b := by
  cases x <;> simp

end Res

/-- `utl::verify(cond, ...)`: throws when the condition is false. -/
def verify (c : Bool) : Res Unit := if c then .ok () else .throw_

@[simp] theorem verify_true : verify true = .ok () := rfl
@[simp] theorem verify_false : verify false = .throw_ := rfl

/-- `std::vector::at`: throws when out of range. -/
def at_ {α : Type} (l : List α) (i : Nat) : Res α :=
  match l[i]? with
  | some a => .ok a
  | none => .throw_

theorem at_of_getElem? {α : Type} {l : List α} {i : Nat} {a : α} (h : l[i]? = some a) :
    at_ l i = .ok a := by simp [at_, h]

/-- object representation of an `n`-byte unsigned integer (bin_utils.h:7-10 `append`);
values are truncated to `n` bytes as by the conversion to the C++ type. -/
def leBytes : Nat → Nat → Bytes
  | 0, _ => []
  | n + 1, v => UInt8.ofNat (v % 256) :: leBytes n (v / 256)

/-- integer value of a little-endian byte string (bin_utils.h:22-26 `read`). -/
def leNat : Bytes → Nat
  | [] => 0
  | b :: bs => b.toNat + 256 * leNat bs

@[simp] theorem leBytes_length (n v : Nat) : (leBytes n v).length = n := by
  induction n generalizing v with
  | zero => rfl
  | succ n ih => simp [leBytes, ih]

theorem leNat_leBytes (n v : Nat) : leNat (leBytes n v) = v % 256 ^ n := by
  induction n generalizing v with
  | zero => simp [leBytes, leNat, Nat.mod_one]
  | succ n ih =>
    have h : (UInt8.ofNat (v % 256)).toNat = v % 256 := by
      rw [UInt8.toNat_ofNat']; omega
    simp only [leBytes, leNat, ih, h]
    rw [Nat.pow_succ, Nat.mul_comm (256 ^ n) 256, Nat.mod_mul]

theorem leNat_leBytes_of_lt {n v : Nat} (h : v < 256 ^ n) : leNat (leBytes n v) = v := by
  rw [leNat_leBytes, Nat.mod_eq_of_lt h]

theorem leNat_lt (bs : Bytes) : leNat bs < 256 ^ bs.length := by
  induction bs with
  | nil => simp [leNat]
  | cons b bs ih =>
    simp only [leNat, List.length_cons, Nat.pow_succ]
    have := b.toNat_lt
    omega

theorem leBytes_leNat (bs : Bytes) : leBytes bs.length (leNat bs) = bs := by
  induction bs with
  | nil => rfl
  | cons b bs ih =>
    have hb := b.toNat_lt
    simp only [List.length_cons, leBytes, leNat]
    have h1 : (b.toNat + 256 * leNat bs) % 256 = b.toNat := by omega
    have h2 : (b.toNat + 256 * leNat bs) / 256 = leNat bs := by omega
    rw [h1, h2, ih]
    simp

end Tiles
