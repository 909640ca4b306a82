import Verif.Model.UuidParser
import Verif.Model.TextBuilder
import Verif.Model.Strings
import Verif.Model.BitCodec
import Verif.Model.IncStack
import Verif.Model.Key
/-!
The model on the inputs of the project's own unit tests, `ron/test`, `db/test/chains.cc`, with the results that the
tests expect. These are tests of the model, not proofs about it. Floats are compared as they are written.
-/
namespace Ron.Checks

/-- The bytes of a string in UTF-8. -/
def u8 (s : String) : List Byte := s.toList.flatMap fun c => utf8append c.toNat

/-- `Uuid{s}`. -/
def uuid (s : String) : Uuid := (UuidParser.parse (lit s)).getD Uuid.FATAL

/-! ### `ron/test/uuid.cc` -/

-- lines 36-42; `NUMERIC`, `SNAKE`, `CAPS`, `CAMEL` are 0, 1, 2, 3 (`ron/const.hpp`)
example : Uuid.NIL.value.base64Case = 0 ∧ (uuid "2134").value.base64Case = 0 ∧ (uuid "ABC~DEFZ").value.base64Case = 2 ∧
    (uuid "Abc_Def").value.base64Case = 3 ∧ (uuid "abc_xyz").value.base64Case = 1 := by decide +kernel

-- lines 45-88
example : (uuid "0000000001").value = 1#64 ∧ (uuid "0000000001").str = lit "0000000001" ∧
    (uuid "0000000001").version = Uuid.vNAME ∧ (uuid "test").str = lit "test" ∧
    Uuid.str ⟨BitVec.ofNat 64 1007006897032658944, 0#64⟩ = lit "subs" ∧ (uuid "abc000$0").str = lit "abc" ∧
    (uuid "0/100+200").str = lit "1+2" := by decide +kernel

/-- `Uuid::Time(1, Word{"origin"})`. -/
def one : Uuid := Uuid.time 1#64 ((Word.parse 0 (lit "origin")).getD 0#64)

example : one.version = Uuid.vTIME ∧ one.derived.version = Uuid.vDERIVED ∧ one.str = lit "0000000001+origin" ∧
    one.inc.str = lit "0000000002+origin" ∧ one.inc.derived.str = lit "0000000002-origin" ∧
    Uuid.lt one one.derived = true ∧ Uuid.gt one.inc one = true ∧ Uuid.lt one one.inc = true ∧ one ≠ one.inc ∧
    (uuid "A/LED").version = Uuid.vNAME ∧ (uuid "A/LED").variety = 10 ∧ (uuid "A/LED").str = lit "A/LED" := by
  decide +kernel

/-! ### `ron/test/text.cc` -/

/-- The values of an op. -/
def values (c : Cursor) : List (Option Cursor.Val) :=
  (List.range (c.op.length - 2)).map fun i => match c.atomVal (i + 2) with | .ok v => some v | _ => none

/-- What is looked at of an op. -/
structure Seen where
  id : Option Uuid
  ref : Option Uuid
  vals : List (Option Cursor.Val)
  deriving DecidableEq

/-- The ops of a frame and the status at the end. -/
def read (s : List Byte) : Out (Option (List Seen × Cursor.NextStatus)) :=
  (Cursor.iterate 50 (Cursor.init s)).bind fun r => .ok (r.map fun x => (x.1.map fun c => ⟨c.id, c.ref, values c⟩, x.2))

/-- One op of `read`. -/
def op (id ref : String) (vals : List Cursor.Val) : Seen := ⟨some (uuid id), some (uuid ref), vals.map some⟩

-- lines 79-122
example : read (u8 "@1A 234 56K;+9223372036854775807'abc' 3, @id 3.1415 >uuid;") = .ok (some (
    [op "1A" "0" [.int 234, .uuid (uuid "56K")],
     op "1A00000001" "1A" [.int 9223372036854775807, .str (lit "abc") 3, .int 3],
     op "id" "1A00000001" [.float (lit "3.1415"), .uuid (uuid "uuid")]], .endOfFrame)) := by decide +kernel

-- lines 133-148
example : read (u8 "@2:1 -1 ,-1.2, +1.23,-1e+2, -2.0e+1,") = .ok (some (
    [op "2" "1" [.int (-1)], op "2000000001" "2" [.float (lit "-1.2")],
     op "2000000002" "2000000001" [.float (lit "+1.23")], op "2000000003" "2000000002" [.float (lit "-1e+2")],
     op "2000000004" "2000000003" [.float (lit "-2.0e+1")]], .endOfFrame)) := by decide +kernel

-- lines 150-156: the second `Next` fails
example : read (u8 "=1,=1000000000000000000001,") = .ok (some ([op "0000000001" "0" [.int 1]], .endOfFrame)) := by
  decide +kernel

-- lines 172-176: a new cursor is not valid
example : (Cursor.init (lit "@id :ref 'bad string" ++ [32, 0x80, 39, 59])).cs = 0 := by decide +kernel

-- lines 178-184
example : (read (u8 "@1+A:2+B 1,2 ,\n,\t4   ,,")).bind (fun r => .ok (r.map fun x => x.1.length)) = .ok (some 5) := by
  decide +kernel

/-- `AppendFrame` and `Release`. -/
def appended (s : List Byte) : Out (Option (List Byte)) :=
  (Builder.appendFrame 50 Builder.init s).bind fun b =>
    match b with
    | none => .ok none
    | some b => b.release.bind fun x => .ok (some x.1)

/-- `while (c.Next()) b.AppendOp(c);`, and `Release`. -/
def copied (s : List Byte) : Out (Option (List Byte)) :=
  (Cursor.iterate 50 (Cursor.init s)).bind fun r =>
    match r with
    | none => .ok none
    | some (cs, _) =>
      (cs.foldl (fun (b : Out Builder) c => b.bind fun b => b.appendCursor c) (.ok Builder.init)).bind fun b =>
        b.release.bind fun x => .ok (some x.1)

-- lines 186-200
example : appended (u8 "@12345+test :lww; @1234500001+test :12345+test 'key' 'value';") =
    .ok (some (u8 "@12345+test :lww;\n 'key' 'value';\n")) := by decide +kernel
example : read (u8 "@12345+test :lww;\n 'key' 'value';\n") = .ok (some (
    [op "12345+test" "lww" [], op "1234500001+test" "12345+test" [.str (lit "key") 3, .str (lit "value") 5]], .endOfFrame)) := by
  decide +kernel

-- lines 202-206
example : (read (u8 "@1iDEKK+gYpLcnUnF6 :1iDEKA+gYpLcnUnF6 ('abcd');")) = .ok (some (
    [op "1iDEKK+gYpLcnUnF6" "1iDEKA+gYpLcnUnF6" [.char 97], op "1iDEKK0001+gYpLcnUnF6" "1iDEKK+gYpLcnUnF6" [.char 98],
     op "1iDEKK0002+gYpLcnUnF6" "1iDEKK0001+gYpLcnUnF6" [.char 99],
     op "1iDEKK0003+gYpLcnUnF6" "1iDEKK0002+gYpLcnUnF6" [.char 100]], .endOfFrame)) := by decide +kernel

-- lines 208-214: "syntax error at line 2 col 5 (offset 13)"
example : (TextParser.run (lit "@line+ok\n:bad/") (lit "@line+ok\n:bad/") TextTable.start
      (Cursor.startRegs (Cursor.init (lit "@line+ok\n:bad/")))).bind
      (fun r => .ok (r.1, r.2.line, r.2.p - r.2.lineb, r.2.p)) = .ok (0, 2, 5, 13) ∧
    read (lit "@line+ok\n:bad/") = .ok (some ([], .badState)) := by decide +kernel

/-- `ReadString16` of the first value of the first op. -/
def first16 (s : List Byte) : Out (List Nat × Bool) :=
  (Cursor.init s).next.bind fun r => match r.1.op[2]? with
    | none => .ub
    | some a => Cursor.readStr16 r.1.buf a

-- lines 216-228
example : (u8 "'пикачу\\u0020ピカチュウ'!").length = 36 ∧
    first16 (u8 "'пикачу\\u0020ピカチュウ'!") = .ok ("пикачу ピカチュウ".toList.map Char.toNat, true) := by decide +kernel

-- lines 230-235
example : read (u8 "@1kK7vk+0 :lww ;\n") = .ok (some ([op "1kK7vk+0" "lww" []], .endOfFrame)) := by decide +kernel

-- lines 237-266
example : copied (u8 "@1lNBfg+0 :1lNBf+0 rm(3);\n") = .ok (some (u8 "@1lNBfg+0 :1lNBf+0 rm(3);\n")) ∧
    appended (u8 "@1lNBku+0 :max 1,\n 2,\n 3;\n") = .ok (some (u8 "@1lNBku+0 :max 1,\n 2,\n 3;\n")) := by decide +kernel

-- lines 268-292
example : copied (u8 "@1lNBvg+0 :1lNBf+0 ('aㅂц');\n") = .ok (some (u8 "@1lNBvg+0 :1lNBf+0 ('aㅂц');\n")) ∧
    read (u8 "@1lNBvg+0 :1lNBf+0 ('aㅂц');\n") = .ok (some ([op "1lNBvg+0" "1lNBf+0" [.char 97],
      op "1lNBvg0001+0" "1lNBvg+0" [.char 0x3142], op "1lNBvg0002+0" "1lNBvg0001+0" [.char 0x0446]], .endOfFrame)) := by
  decide +kernel

-- lines 294-302
example : appended (u8 "@1lNBvg+0 :1lNBf+0 'a','ㅂ','ц';\n") = .ok (some (u8 "@1lNBvg+0 :1lNBf+0 ('aㅂц');\n")) := by
  decide +kernel

/-- `AppendOp(Op{id, ref, args...})` for all, and a last step. -/
def built (fmt : Word → List Byte) (ops : List (Uuid × Uuid × List Arg)) : Out Builder :=
  ops.foldl (fun (b : Out Builder) o => b.bind fun b => (Op.mk' o.1 o.2.1 o.2.2).bind fun o => b.appendOp fmt o) (.ok Builder.init)

/-- The text of the float 3.14159265359 with the format `%.17G`, as the test expects it. -/
def pi : Word → List Byte := fun _ => lit "3.1415926535900001"

-- lines 31-43
example : (built pi [(uuid "1lQA32+0", uuid "lww", []),
      (uuid "1lQA320001+0", uuid "1lQA32+0", [.uuid (uuid "int"), .int 1]),
      (uuid "1lQA320002+0", uuid "1lQA320001+0", [.uuid (uuid "float"), .float 0#64]),
      (uuid "1lQA320003+0", uuid "1lQA320002+0", [.uuid (uuid "string"), .str (u8 "юникод")])]).bind
      (fun b => (b.endChunk 0).bind fun b => .ok b.data) =
    .ok (u8 "@1lQA32+0 :lww,\n int 1,\n float 3.1415926535900001,\n string 'юникод';\n") := by decide +kernel

/-- The strings of the first op, read back. -/
def strings (s : List Byte) : Out (List (List Byte)) :=
  (Cursor.init s).next.bind fun r =>
    (r.1.op.drop 2).foldr (fun a x => (Cursor.readStr r.1.buf a).bind fun d => x.bind fun ds => .ok (d.1 :: ds)) (.ok [])

-- lines 158-170
example : (built pi [(uuid "1+a", uuid "2+b", [.str (lit "'esc'"), .str (lit "=\r\n\t\\=")])]).bind
      (fun b => b.release.bind fun x => strings x.1) = .ok [lit "'esc'", lit "=\r\n\t\\="] := by decide +kernel

/-! ### `ron/test/hash.cc` -/

def okhex : List Byte := lit "97fa0525e009867adffe5e2c71f93057dfb8293c25c27292cd4caf230a0e39ec"
def okbase : List Byte := lit "a~d59U09XcgV~athSV_lLyztAJlalcAIoKnk8ldEEUl"

-- lines 49-52
example : SHA2.valid okbase = true ∧ SHA2.valid (okbase.dropLast ++ lit "1") = false := by decide +kernel

/-- The hash that both texts stand for. -/
def okbits : SHA2 := ⟨256, [151, 250, 5, 37, 224, 9, 134, 122, 223, 254, 94, 44, 113, 249, 48, 87, 223, 184, 41, 60, 37, 194, 114,
  146, 205, 76, 175, 35, 10, 14, 57, 236]⟩

-- lines 46-47
example : okbits.hex = some okhex ∧ okbits.base64 = some okbase := by decide +kernel

-- lines 48-57 and 60-80: the parsers ignore what they are given (C11), so these do not hold of the code: a parsed hash is
-- not the hash, a wrong one is not told apart, and what is not a hash has known bits. What does hold is that the parsed
-- ones match.
example : SHA2.parseHex okhex ≠ some okbits ∧ SHA2.parseBase64 okbase ≠ some okbits ∧
    SHA2.parseHex okhex = SHA2.parseBase64 okbase ∧ (SHA2.parseHex (lit "z")).map SHA2.known = some 4 := by decide +kernel

/-- `a.matches(b)` of two hashes in hex. -/
def hexMatch (a b : List Byte) : Option Bool := (SHA2.parseHex a).bind fun x => (SHA2.parseHex b).bind fun y => x.matches y

example : hexMatch okhex (lit "97fa") = some true ∧ hexMatch (lit "97fA0525E") okhex = some true ∧
    hexMatch (lit "97fa0") okhex = some true ∧ hexMatch (lit "97fa1") okhex = some true := by decide +kernel

/-! ### `ron/test/cp.cc` -/

-- lines 18-31
example : Utf8Parser.parse [] (u8 "ABC") = some ([65, 66, 67], true) ∧
    (Utf8Parser.parse [] (u8 "Юникод\t萬國碼")).map (fun r => (r.1.length, r.1[5]?, r.2)) = some (10, some 0x0434, true) := by
  decide +kernel

/-! ### `ron/test/meta.cc` -/

/-- The numbers below 1000. -/
def thousand : IncStack Nat := (List.range 1000).foldl (IncStack.push plus32) IncStack.empty

-- lines 65-87
example : thousand.size = 1000 ∧ thousand.spans.length = 1 ∧ (thousand.push plus32 0).size = 1001 ∧
    (thousand.push plus32 0).spans.length = 2 ∧
    (((thousand.push plus32 0).pop).bind IncStack.pop).map (fun s => (s.size, s.spans.length)) = some (999, 1) := by
  decide +kernel

/-! ### `db/test/chains.cc` -/

-- lines 38-49
example : (Key.mk' (uuid "1gA9cz+gritzko") Form.LOG).form = Form.LOG ∧
    (Key.mk' (uuid "1gA9cz+gritzko") Form.LOG).id = uuid "1gA9cz+gritzko" ∧
    (uuid "1gA9cz+gritzko").str = lit "1gA9cz+gritzko" ∧
    (Key.mk' (uuid "1gA9cz+gritzko").derived Form.LOG).id = uuid "1gA9cz+gritzko" := by decide +kernel

end Ron.Checks
