import Verif.Model.Word
/-!
Status codes: `ron/status.hpp`, `ron/status.cc`.
-/
namespace Ron

/-- `ron/status.hpp:10-13` `class Status`. -/
structure Status where
  code : Uuid
  comment : List Byte := []
  deriving DecidableEq, Repr, Inhabited

namespace Status

/-- `ron/status.hpp:16` `Status(uint64_t err_code)`. -/
def err (n : Nat) : Status := ⟨⟨BitVec.ofNat 64 n, Word.MAX_VALUE⟩, []⟩

/-- `ron/status.hpp:25-27` `comment(add)`: replaces the comment. -/
def withComment (s : Status) (c : List Byte) : Status := ⟨s.code, c⟩

/-- `ron/status.hpp:29-31` `operator bool`: not an error. -/
def ok (s : Status) : Bool := s.code.origin != Word.MAX_VALUE

/-- `ron/status.hpp:33` `operator==`: codes only. -/
def eq (a b : Status) : Bool := a.code == b.code

/-! `ron/status.cc:5-33`. -/
def OK : Status := ⟨⟨0#64, 0#64⟩, []⟩
def ENDOFFRAME : Status := err 258734343834084750
def ENDOFINPUT : Status := err 258734343883429789
def NOT_IMPLEMENTED : Status := err 421215369505919885
def NOT_FOUND : Status := err 428933766657507328
def BAD_STATE : Status := err 201032812431266688
def BADARGS : Status := err 201031024437624832
def BADSYNTAX : Status := err 201032269022144576
def DB_FAIL : Status := err 237442776878546944
def IOFAIL : Status := err 331081250183839744
def BADFRAME : Status := err 201031367932829696
def BADID : Status := err 201031558885277696
def BADREF : Status := err 201032178685968384
def BADVALUE : Status := err 201032449377492992
def NOTYPE : Status := err 421216472048599040
def NOTOPEN : Status := err 421215784859860992
def CHAINBREAK : Status := err 221003099021304468
def HASHBREAK : Status := err 309183850229572864
def TREEBREAK : Status := err 530079928137852160
def CAUSEBREAK : Status := err 219121412645642900
def REPEAT : Status := err 490440333889372160
def REORDER : Status := err 490436832172703744
def CONFLICT : Status := err 223030390270578688
def TREEGAP : Status := err 530079933224189952
def YARNGAP : Status := err 615424644247453696

/-- All published constants except OK, in source order. -/
def errors : List Status := [ENDOFFRAME, ENDOFINPUT, NOT_IMPLEMENTED, NOT_FOUND, BAD_STATE,
  BADARGS, BADSYNTAX, DB_FAIL, IOFAIL, BADFRAME, BADID, BADREF, BADVALUE, NOTYPE, NOTOPEN,
  CHAINBREAK, HASHBREAK, TREEBREAK, CAUSEBREAK, REPEAT, REORDER, CONFLICT, TREEGAP, YARNGAP]

end Status
end Ron
