import Verif.Model

/-!
# The text of errors

`VerificationError` derives `Display` from its documentation comments (verify.rs:264-306, attribute
`display(doc_comments)` of the `amplify_derive` crate), and `Debug` prints the same text
(verify.rs:309-312).  As the expected messages of the tests show (verify.rs:531-549, 615-622),
consecutive lines of a comment are joined by a space, an empty line becomes a line break, and the
placeholders are formatted as by `format!`.

Strings are lists of characters.  Texts made by other crates are parameters (`Displays`); the formats of
the Rust standard library used by `{:#?}` are modelled.
-/

namespace Rgb
namespace ErrorText

/-- `u16` in decimal, or a number in another base: digits without leading zeros. -/
def numeral (base n : Nat) : List Char :=
  if _h : n < base ∨ base < 2 then [Nat.digitChar n] else numeral base (n / base) ++ [Nat.digitChar (n % base)]
  termination_by n
  decreasing_by exact Nat.div_lt_self (by omega) (by omega)

/-- A number in hexadecimal with exactly `k` digits. -/
def hex : Nat → Nat → List Char
  | 0, _ => []
  | k + 1, n => hex k (n / 16) ++ [Nat.digitChar (n % 16)]

/-- How a character appears in the `Debug` format of a string; `printable` is the table of the
standard library. -/
def escape (printable : Char → Bool) (c : Char) : List Char :=
  if c = '\x00' then ['\\', '0']
  else if c = '\t' then ['\\', 't']
  else if c = '\r' then ['\\', 'r']
  else if c = '\n' then ['\\', 'n']
  else if c = '"' then ['\\', '"']
  else if c = '\\' then ['\\', '\\']
  else if printable c then [c]
  else ['\\', 'u', '{'] ++ numeral 16 c.toNat ++ ['}']

/-- `Debug` of a string. -/
def quote (printable : Char → Bool) (s : List Char) : List Char := ['"'] ++ s.flatMap (escape printable) ++ ['"']

/-- Four spaces before each line: the nesting of `{:#?}`. -/
def pad (s : List Char) : List Char :=
  "    ".toList ++ s.flatMap fun c => if c = '\n' then "\n    ".toList else [c]

/-- `{:#?}` of a set or map with the given entries. -/
def braces (entries : List (List Char)) : List Char :=
  if entries.isEmpty then "{}".toList
  else "{\n".toList ++ (entries.flatMap fun e => pad e ++ ",\n".toList) ++ "}".toList

/-- `{:#?}` of a tuple structure with one field. -/
def tuple (name : List Char) (field : List Char) : List Char :=
  name ++ "(\n".toList ++ pad field ++ ",\n".toList ++ ")".toList

/-- `{:#?}` of an `AuthToken`, a tuple structure around a field element `fe256` (verify.rs:535-539). -/
def token (t : AuthToken) : List Char :=
  tuple "AuthToken".toList (tuple "fe256".toList ("0x".toList ++ hex 64 t.fe))

/-- `{:#?}` of a `BTreeSet<AuthToken>` (verify.rs:289, 291). -/
def tokens (s : OSet AuthToken) : List Char := braces (s.elems.map token)

/-- `{:#?}` of a `BTreeMap<u16, String>` (verify.rs:293). -/
def sources (printable : Char → Bool) (m : OMap U16 String) : List Char :=
  braces (m.entries.map fun e => numeral 10 e.1 ++ ": ".toList ++ quote printable e.2.toList)

variable {Seal : Type} [LinearOrder Seal] [RgbSeal Seal] {E : Type}

/-- Formats defined in other crates: `Display` of operation ids, witness ids, seal errors, stream errors
and errors of the virtual machine, and the table of printable characters. -/
structure Displays (Seal : Type) [LinearOrder Seal] [RgbSeal Seal] (E : Type) where
  opid : Opid → List Char
  witnessId : RgbSeal.WitnessId Seal → List Char
  sealError : RgbSeal.SealError Seal → List Char
  stream : E → List Char
  callError : CallError → List Char
  printable : Char → Bool

/-- `Display` of a `CellAddr`, as in verify.rs:564. -/
def cellAddr (D : Displays Seal E) (a : CellAddr) : List Char := D.opid a.opid ++ ":".toList ++ numeral 10 a.pos

/-- `Display for VerificationError` (verify.rs:264-306). -/
def display (D : Displays Seal E) : VerificationError Seal E → List Char
  -- verify.rs:267-269
  | .stream e => "error reading the consignment stream.\nDetails: ".toList ++ D.stream e
  -- verify.rs:272
  | .noCodexCommitment => "genesis does not commit to the codex id; a wrong contract genesis is used.".toList
  -- verify.rs:275
  | .noWitness o => "no witness known for the operation ".toList ++ D.opid o ++ ".".toList
  -- verify.rs:278-280
  | .sealsNotClosed w o e =>
    "single-use seals are not closed properly with witness ".toList ++ D.witnessId w ++ " for operation ".toList ++
      D.opid o ++ ".\nDetails: ".toList ++ D.sealError e
  -- verify.rs:283
  | .sealUnknown a => "unknown seal definition for cell address ".toList ++ cellAddr D a ++ ".".toList
  -- verify.rs:286-293; "do match" is what the program prints
  | .sealsDefinitionMismatch o reported defined srcs =>
    "seals, reported to be defined by the operation ".toList ++ D.opid o ++
      ", do match the assignments in the operation.\nActual operation seals from the assignments: ".toList ++
      tokens defined ++ "\nReported seals: ".toList ++ tokens reported ++
      "\nSources for the reported seals: ".toList ++ sources D.printable srcs
  -- verify.rs:304, `display(inner)`
  | .vm e => D.callError e

/-- `Debug for VerificationError` (verify.rs:309-312). -/
def debug (D : Displays Seal E) (e : VerificationError Seal E) : List Char := display D e

end ErrorText
end Rgb
