import Verif.F32
import Verif.F64

set_option autoImplicit false

/-!
# Bytes, files and readers

Numbers are written with `to_ne_bytes` and read with `from_ne_bytes` (/repo/src/hnswio.rs); the
platform is little endian with 64 bit `usize`.
A reader is a function on the bytes that remain; it ends with a value, or with one of the ways a
Rust function can fail to return one.
-/

namespace Verif

/-- content of a file -/
abbrev Bytes := List UInt8

/-- What can happen instead of a result. -/
inductive Fail where
  /-- the function returns `Err` -/
  | err
  /-- a panic -/
  | panic
  /-- `std::process::exit(1)` -/
  | exit
  /-- undefined behaviour: a slice is made from memory outside of its buffer -/
  | ub
deriving DecidableEq, Repr

/-- `k` bytes of `n`, little endian (`to_ne_bytes` of an integer of `k` bytes). -/
def leBytes : Nat → Nat → Bytes
  | 0, _ => []
  | k + 1, n => UInt8.ofNat n :: leBytes k (n / 256)

/-- value of little endian bytes (`from_ne_bytes`). -/
def ofLE : Bytes → Nat
  | [] => 0
  | b :: bs => b.toNat + 256 * ofLE bs

/-- bit pattern of an `f32` -/
def F32.bits (x : F32) : Nat := (if x.sign then 2 ^ 31 else 0) + x.mag.val

/-- `f32` of a bit pattern -/
def F32.ofRaw (n : Nat) : F32 := ⟨decide (2 ^ 31 ≤ n % 2 ^ 32), Fin.ofNat _ (n % 2 ^ 31)⟩

/-- bit pattern of an `f64` -/
def F64.bits (x : F64) : Nat := (if x.sign then 2 ^ 63 else 0) + x.mag.val

/-- `f64` of a bit pattern -/
def F64.ofRaw (n : Nat) : F64 := ⟨decide (2 ^ 63 ≤ n % 2 ^ 64), Fin.ofNat _ (n % 2 ^ 63)⟩

/-- a reader on the streams `σ` -/
def Rd (σ α : Type) : Type := σ → Except Fail (α × σ)

namespace Rd
variable {σ α β : Type}

/-- return a value, read nothing -/
def pure (a : α) : Rd σ α := fun s => .ok (a, s)

/-- sequence -/
def bind (m : Rd σ α) (f : α → Rd σ β) : Rd σ β := fun s =>
  match m s with
  | .error e => .error e
  | .ok (a, s') => f a s'

instance : Monad (Rd σ) where
  pure := Rd.pure
  bind := Rd.bind

/-- stop -/
def fail (e : Fail) : Rd σ α := fun _ => .error e

/-- an `assert!` / an early return -/
def require (c : Bool) (e : Fail) : Rd σ Unit := fun s => if c then .ok ((), s) else .error e

/-- a computation that reads nothing -/
def lift (x : Except Fail α) : Rd σ α := fun s =>
  match x with
  | .ok a => .ok (a, s)
  | .error e => .error e

/-- the same reader `n` times -/
def rep (n : Nat) (m : Rd σ α) : Rd σ (List α) :=
  match n with
  | 0 => Pure.pure []
  | n + 1 => do
    let a ← m
    let as ← rep n m
    Pure.pure (a :: as)

end Rd

/-- `read_exact` of `n` bytes; `eof` is what a failure becomes in the caller: `err` for the `?`
operator, `panic` for `unwrap()`. -/
def readExact (eof : Fail) (n : Nat) : Rd Bytes Bytes := fun s =>
  if n ≤ s.length then .ok (s.take n, s.drop n) else .error eof

/-- an integer of `n` bytes -/
def readNat (eof : Fail) (n : Nat) : Rd Bytes Nat := do
  let b ← readExact eof n
  pure (ofLE b)

/-- the graph file and the data file -/
abbrev Two := Bytes × Bytes

/-- read from the graph file -/
def onG {α : Type} (m : Rd Bytes α) : Rd Two α := fun s =>
  match m s.1 with
  | .error e => .error e
  | .ok (a, g) => .ok (a, (g, s.2))

/-- read from the data file -/
def onD {α : Type} (m : Rd Bytes α) : Rd Two α := fun s =>
  match m s.2 with
  | .error e => .error e
  | .ok (a, d) => .ok (a, (s.1, d))

end Verif
