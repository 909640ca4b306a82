import Verif.Model.Bytes
/-!
Specification: integer literals and quoted strings.
-/
namespace Ron.Spec

/-- A decimal digit. -/
def IsDigit (c : Byte) : Prop := 48 ≤ c.toNat ∧ c.toNat ≤ 57

/-- Value of a decimal numeral. -/
def decVal (s : List Byte) : Nat := s.foldl (fun a c => a * 10 + (c.toNat - 48)) 0

/-- `IntText s v`: `s` is an integer literal (an optional sign and at least one digit,
`INT` of `ragel/text-grammar.rl:78`) of the mathematical value `v`. -/
inductive IntText : List Byte → Int → Prop
  | plain (s : List Byte) (hn : s ≠ []) (h : ∀ c ∈ s, IsDigit c) : IntText s (decVal s)
  | plus (c : Byte) (s : List Byte) (hc : c.toNat = 43) (hn : s ≠ [])
      (h : ∀ c ∈ s, IsDigit c) : IntText (c :: s) (decVal s)
  | minus (c : Byte) (s : List Byte) (hc : c.toNat = 45) (hn : s ≠ [])
      (h : ∀ c ∈ s, IsDigit c) : IntText (c :: s) (-(decVal s : Int))

/-- Where a single-quoted atom ends, by the reading rule of the notation: a backslash
protects the next byte, a bare quote ends the atom, a bare line end is an error. Returns
the text between the quotes and what follows the closing quote. -/
def scanQuoted : List Byte → Option (List Byte × List Byte)
  | [] => none
  | c :: rest =>
    if c.toNat = 39 then some ([], rest)
    else if c.toNat = 10 ∨ c.toNat = 13 then none
    else if c.toNat = 92 then
      match rest with
      | [] => none
      | e :: rest' =>
        if e.toNat = 10 ∨ e.toNat = 13 then none
        else (scanQuoted rest').map fun r => (c :: e :: r.1, r.2)
    else (scanQuoted rest).map fun r => (c :: r.1, r.2)

end Ron.Spec
