import Verif.Model.HashStream
import Verif.Model.BitCodec
import Verif.Checks.Ron
/-!
SHA-512/256 (FIPS 180-4), which the project takes from a library (`Botan::SHA_512_256`), to run the hash streams of the
model on the hashes that `ron/test/hash.cc` expects. No theorem depends on it.
-/
namespace Ron.Checks.Sha
open Ron

/-- FIPS 180-4, 4.2.3. -/
def K : List Nat :=
  [0x428a2f98d728ae22, 0x7137449123ef65cd, 0xb5c0fbcfec4d3b2f, 0xe9b5dba58189dbbc,
   0x3956c25bf348b538, 0x59f111f1b605d019, 0x923f82a4af194f9b, 0xab1c5ed5da6d8118,
   0xd807aa98a3030242, 0x12835b0145706fbe, 0x243185be4ee4b28c, 0x550c7dc3d5ffb4e2,
   0x72be5d74f27b896f, 0x80deb1fe3b1696b1, 0x9bdc06a725c71235, 0xc19bf174cf692694,
   0xe49b69c19ef14ad2, 0xefbe4786384f25e3, 0x0fc19dc68b8cd5b5, 0x240ca1cc77ac9c65,
   0x2de92c6f592b0275, 0x4a7484aa6ea6e483, 0x5cb0a9dcbd41fbd4, 0x76f988da831153b5,
   0x983e5152ee66dfab, 0xa831c66d2db43210, 0xb00327c898fb213f, 0xbf597fc7beef0ee4,
   0xc6e00bf33da88fc2, 0xd5a79147930aa725, 0x06ca6351e003826f, 0x142929670a0e6e70,
   0x27b70a8546d22ffc, 0x2e1b21385c26c926, 0x4d2c6dfc5ac42aed, 0x53380d139d95b3df,
   0x650a73548baf63de, 0x766a0abb3c77b2a8, 0x81c2c92e47edaee6, 0x92722c851482353b,
   0xa2bfe8a14cf10364, 0xa81a664bbc423001, 0xc24b8b70d0f89791, 0xc76c51a30654be30,
   0xd192e819d6ef5218, 0xd69906245565a910, 0xf40e35855771202a, 0x106aa07032bbd1b8,
   0x19a4c116b8d2d0c8, 0x1e376c085141ab53, 0x2748774cdf8eeb99, 0x34b0bcb5e19b48a8,
   0x391c0cb3c5c95a63, 0x4ed8aa4ae3418acb, 0x5b9cca4f7763e373, 0x682e6ff3d6b2b8a3,
   0x748f82ee5defb2fc, 0x78a5636f43172f60, 0x84c87814a1f0ab72, 0x8cc702081a6439ec,
   0x90befffa23631e28, 0xa4506cebde82bde9, 0xbef9a3f7b2c67915, 0xc67178f2e372532b,
   0xca273eceea26619c, 0xd186b8c721c0c207, 0xeada7dd6cde0eb1e, 0xf57d4f7fee6ed178,
   0x06f067aa72176fba, 0x0a637dc5a2c898a6, 0x113f9804bef90dae, 0x1b710b35131c471b,
   0x28db77f523047d84, 0x32caab7b40c72493, 0x3c9ebe0a15c9bebc, 0x431d67c49c100d4c,
   0x4cc5d4becb3e42b6, 0x597f299cfc657e2a, 0x5fcb6fab3ad6faec, 0x6c44198c4a475817]

/-- FIPS 180-4, 5.3.6.2. -/
def IV : List Nat :=
  [0x22312194fc2bf72c, 0x9f555fa3c84c64c2, 0x2393b86b6f53b151, 0x963877195940eabd,
   0x96283ee2a88effe3, 0xbe5e1e2553863992, 0x2b0199fc2c85b8aa, 0x0eb72ddc81c52ca2]

/-- `x` rotated to the right. -/
def rotr (n : Nat) (x : Nat) : Nat := x / 2 ^ n ||| (x % 2 ^ n) * 2 ^ (64 - n)

def add (l : List Nat) : Nat := l.foldl (· + ·) 0 % 2 ^ 64

/-- The message schedule, newest word first: `n` more words. -/
def extend : Nat → List Nat → List Nat
  | 0, w => w
  | n + 1, w =>
    let x := w.getD 14 0
    let y := w.getD 1 0
    extend n (add [w.getD 15 0, rotr 1 x ^^^ rotr 8 x ^^^ x / 2 ^ 7, w.getD 6 0, rotr 19 y ^^^ rotr 61 y ^^^ y / 2 ^ 6] :: w)

/-- One round. -/
def round (s : List Nat) (kw : Nat × Nat) : List Nat :=
  match s with
  | [a, b, c, d, e, f, g, h] =>
    let t1 := add [h, rotr 14 e ^^^ rotr 18 e ^^^ rotr 41 e, (e &&& f) ^^^ ((e ^^^ (2 ^ 64 - 1)) &&& g), kw.1, kw.2]
    let t2 := add [rotr 28 a ^^^ rotr 34 a ^^^ rotr 39 a, (a &&& b) ^^^ (a &&& c) ^^^ (b &&& c)]
    [add [t1, t2], a, b, c, add [d, t1], e, f, g]
  | _ => s

/-- A word of eight bytes. -/
def word (b : List Byte) : Nat := b.foldl (fun n x => n * 256 + x.toNat) 0

/-- `n` words. -/
def words : Nat → List Byte → List Nat
  | 0, _ => []
  | n + 1, b => word (b.take 8) :: words n (b.drop 8)

/-- One block of 128 bytes. -/
def block (h : List Nat) (b : List Byte) : List Nat :=
  let w := (extend 64 (words 16 b).reverse).reverse
  List.zipWith (fun x y => (x + y) % 2 ^ 64) h ((K.zip w).foldl round h)

/-- All the blocks. -/
def blocks : Nat → List Nat → List Byte → List Nat
  | 0, h, _ => h
  | n + 1, h, b => if b = [] then h else blocks n (block h (b.take 128)) (b.drop 128)

/-- `n` bytes of a number, the most significant one first. -/
def bytesOf (n x : Nat) : List Byte := (List.range n).map fun i => UInt8.ofNat (x / 256 ^ (n - 1 - i))

/-- The padded message. -/
def pad (m : List Byte) : List Byte :=
  m ++ 0x80 :: List.replicate ((239 - m.length % 128) % 128) 0 ++ bytesOf 16 (8 * m.length)

/-- SHA-512/256. -/
def sha (m : List Byte) : List Byte := ((blocks (m.length / 64 + 2) IV (pad m)).take 4).flatMap (bytesOf 8)

-- the example of FIPS 180-4 for "abc"
example : (SHA2.mk 256 (sha (lit "abc"))).hex = some (lit "53048e2681941ef99b2e29b76b4c7dabe4c2d0c634fc6d46e0e2f13107e7af23") := by
  decide +kernel

/-- `SHA2{uuid}`, `ron/hash.hpp:160-164`. -/
def uuidHash (u : Uuid) : List Byte := sha (atomBytes u)

/-- The hash of the first op of a frame, with the hashes of the op before it and of the op referred to. -/
def firstHash (frame prev refd : List Byte) : Out (Option (List Byte) × Option (List Byte)) :=
  (Cursor.init frame).next.bind fun r => (Cursor.hashable (fun _ => 0#64) r.1 prev refd).bind fun s =>
    .ok ((SHA2.mk 256 (sha s)).hex, (SHA2.mk 256 (sha s)).base64)

-- `ron/test/hash.cc:25-46`. The cursor of the test is not moved to the first op (`Cursor cur = frame.cursor();`), so at
-- this commit its `id()` is a read past the end; the hash that the test expects is that of the first op.
example : firstHash (lit "@1+src :lww,\n@2+orig 'key' 'value';\n") (uuidHash (uuid "0+src")) (uuidHash (uuid "lww")) =
    .ok (some okhex, some okbase) := by decide +kernel

end Ron.Checks.Sha
