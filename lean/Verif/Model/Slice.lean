import Verif.Model.RagelAct
import Verif.Model.Atom
/-!
`Range` and `Slice`, `ron/slice.hpp:52-234`. The memory a slice refers to is the list of the bytes from
`buf_` on that may be read. Arithmetic on `fsize_t` is exact as long as the positions are below 2^32; the
asserts on valid ranges are kept.
-/
namespace Ron

/-- `ron/slice.hpp:135-137` `class Slice`: the memory and the range. -/
structure Slice where
  buf : List Byte
  b : Nat
  e : Nat
  deriving DecidableEq, Repr

namespace Slice

/-- `range_.size()`, `ron/slice.hpp:102-105`: fails an assert if the end is before the begin. -/
def size (s : Slice) : Out Nat := if s.b ≤ s.e then .ok (s.e - s.b) else .abort

/-- `at(idx)`, `ron/slice.hpp:169`, `Range::offset`, lines 98-101. -/
def at_ (s : Slice) (i : Nat) : Out Byte :=
  if s.b + i < s.e then Out.ofOption s.buf[s.b + i]? else .abort

/-- `memcmp` of `n` bytes: are they the same? -/
def sameBytes (x y : List Byte) (i j n : Nat) : Out Bool :=
  if i + n ≤ x.length ∧ j + n ≤ y.length then .ok (decide ((x.drop i).take n = (y.drop j).take n)) else .ub

/-- `operator==`, `ron/slice.hpp:185-187`. -/
def eq (s t : Slice) : Out Bool :=
  s.size.bind fun n => t.size.bind fun m => if n = m then sameBytes s.buf t.buf s.b t.b n else .ok false

/-- A `size_t` in memory, little-endian. -/
def wordAt (buf : List Byte) (i : Nat) : Out Word :=
  if i + 8 ≤ buf.length then
    .ok (BitVec.ofNat 64 (((buf.drop i).take 8).foldr (fun c n => c.toNat + 256 * n) 0))
  else .ub

/-- The first loop of `hash`, `ron/slice.hpp:199-202`, from the word `i` on, `n` words; `f` is
`std::hash<size_t>`. -/
def hashWords (f : Word → Word) (s : Slice) : Nat → Nat → Word → Out Word
  | _, 0, r => .ok r
  | i, n + 1, r => (wordAt s.buf (s.b + 8 * i)).bind fun w => hashWords f s (i + 1) n (r ^^^ f w)

/-- The second loop of `hash`, `ron/slice.hpp:203-205`, from the byte `i` on, `n` bytes; `g` is
`std::hash<char>`. -/
def hashBytes (g : Byte → Word) (s : Slice) : Nat → Nat → Word → Out Word
  | _, 0, r => .ok r
  | i, n + 1, r => (s.at_ i).bind fun c => hashBytes g s (i + 1) n (r ^^^ g c)

/-- `hash`, `ron/slice.hpp:193-207`, 64-bit. -/
def hash (f : Word → Word) (g : Byte → Word) (s : Slice) : Out Word :=
  s.size.bind fun n => (hashWords f s 0 (n / 8) 0#64).bind fun r => hashBytes g s (n / 8 * 8) (n % 8) r

/-- `str()`, `ron/slice.hpp:209-212`: `String{buf_, begin, end}` makes a string of `buf_` up to a NUL,
and takes of it at most `end` bytes from `begin` on. Without a NUL the memory is overrun; a begin past the
string throws. -/
def str (s : Slice) : Out (List Byte) :=
  let c := s.buf.takeWhile fun x => x != 0
  if c.length = s.buf.length then .ub
  else if c.length < s.b then .abort
  else .ok ((c.drop s.b).take s.e)

/-- `slice(range)`, `ron/slice.hpp:221-226`. -/
def sub (s : Slice) (b e : Nat) : Out Slice :=
  s.size.bind fun n =>
    if n < e then .abort
    else if ¬ s.b + b < s.e then .abort
    else if e < b then .abort
    else .ok ⟨s.buf, s.b + b, s.b + b + (e - b)⟩

/-- `range_of(sub)`, `ron/slice.hpp:214-219`, of a slice of the same memory. -/
def rangeOf (s t : Slice) : Out (Nat × Nat) :=
  if t.b < s.b then .abort
  else if s.e < t.e then .abort
  else t.size.bind fun n => .ok (t.b - s.b, t.b - s.b + n)

/-- `Consume`, `ron/slice.hpp:182,109-112`. -/
def consume (s : Slice) (n : Nat) : Out Slice := if s.b + n ≤ s.e then .ok { s with b := s.b + n } else .abort

/-- `CutOff(b)`, `ron/slice.hpp:228-231`, of a slice of the same memory. -/
def cutOff (s t : Slice) : Slice := ⟨s.buf, s.b, t.b⟩

end Slice
end Ron
