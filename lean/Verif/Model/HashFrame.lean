import Verif.Model.Replica
import Verif.Model.BitCodec
import Verif.Model.Utf
/-!
`CommandHashFrame`, `db/main.cc:486-535`: the hashes of the events of a frame. The command line does not offer the command.

`none` is a failed assertion (`ron/hash.hpp:73-75`) or a read past the end.
-/
namespace Ron

/-- `SHA2::FORM_ID`, `ron/hash.cc:6`: `sha2`. -/
def SHA2_ID : Uuid := ⟨BitVec.ofNat 64 (55 * 2 ^ 54 + 44 * 2 ^ 48 + 37 * 2 ^ 42 + 2 * 2 ^ 36), 0#64⟩

/-- The variables of the command, `db/main.cc:489-492`. -/
structure HashRun where
  report : ABuilder
  hashes : List (Uuid × SHA2)
  tips : List (Word × Word)

namespace HashRun

/-- Nothing hashed yet. -/
def empty : HashRun := ⟨ABuilder.empty, [], []⟩

/-- `db/main.cc:500-506`: the hash of the op before in the yarn. What `tips` has is in `hashes` (else an empty hash
would be made by `operator[]`). -/
def prevHash (hs : Hashing) (s : HashRun) (o : AOp) : SHA2 :=
  match s.tips.lookup o.id.origin with
  | none => ⟨256, hs.form ⟨0#64, o.id.origin⟩⟩
  | some t => (s.hashes.lookup ⟨t, o.id.origin⟩).getD SHA2.new

/-- `db/main.cc:507-515`: the hash of what the op refers to. -/
def refHash (hs : Hashing) (s : HashRun) (o : AOp) : Status × SHA2 :=
  if o.ref.version = Uuid.vTIME then
    match s.hashes.lookup o.ref with
    | none => (Status.TREEGAP, SHA2.new)
    | some h => (Status.OK, h)
  else if o.ref.version = Uuid.vNAME then (Status.OK, ⟨256, hs.form o.ref⟩)
  else (Status.BAD_STATE, SHA2.new)

/-- An event, `db/main.cc:498-520`. `hash_op`, `ron/hash.hpp:176-183`, does not set `known_bits_`. -/
def event (hs : Hashing) (s : HashRun) (o : AOp) : Option (Status × HashRun) :=
  let p := s.prevHash hs o
  let r := s.refHash hs o
  if ¬ r.1.ok then some (r.1, s)
  else
    let h : SHA2 := { SHA2.new with bits := hs.op o p.bits r.2.bits }
    h.base64.map fun t => (Status.OK, ⟨s.report.append ⟨SHA2_ID, o.id, [.str (t.map UInt8.toNat)], .raw⟩,
      (o.id, h) :: s.hashes, (o.id.origin, o.id.value) :: s.tips⟩)

/-- An annotation, `db/main.cc:521-531`: it is looked up by its own id, not by the event it is of. -/
def annotation (s : HashRun) (o : AOp) (text : List Nat) : Option (Status × HashRun) :=
  (SHA2.parseBase64 (text.flatMap utf8append)).bind fun h =>
    match s.hashes.lookup o.id with
    | none => some (Status.OK, { s with
        hashes := (o.id, h) :: s.hashes,
        tips := if ((s.tips.lookup o.id.origin).getD 0#64).toNat < o.id.value.toNat
          then (o.id.origin, o.id.value) :: s.tips else s.tips })
    | some g => (h.matches g).map fun m => (if m then Status.OK else Status.HASHBREAK, s)

/-- One turn of the loop, `db/main.cc:495-532`. -/
def turn (hs : Hashing) (s : HashRun) (o : AOp) : Option (Status × HashRun) :=
  if o.id.version = Uuid.vTIME then s.event hs o
  else if o.id = SHA2_ID then
    match o.vals with
    | .str t :: _ => s.annotation o t
    | _ => some (Status.OK, s)
  else some (Status.OK, s)

/-- The loop. -/
def loop (hs : Hashing) : HashRun → List AOp → Option (Status × HashRun)
  | s, [] => some (Status.OK, s)
  | s, o :: os => (s.turn hs o).bind fun r => if ¬ r.1.ok then some r else loop hs r.2 os

end HashRun

/-- `CommandHashFrame`, `db/main.cc:486-535`: the status and what is printed. A syntax error ends the loop as the end of the
frame does. -/
def hashFrame (hs : Hashing) (f : List AOp) : Option (Status × List AOp) :=
  (HashRun.empty.loop hs f).map fun r => (r.1, if r.1.ok then r.2.report.release else [])

end Ron
