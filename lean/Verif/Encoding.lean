import Verif.Bitcoin

/-!
# The strict encoding of `OperationSeals`

`OperationSeals` derives `StrictEncode` and `StrictDecode` (verify.rs:43-54).  The derive macro and the
codecs of the containers are in `strict_encoding`, which is not part of `/repo`; modelled is their
layout: the fields in the order of declaration, a `u16` in two bytes with the lower one first, an
`Option` with a tag byte 0 or 1, a `SmallOrdMap` with a 16-bit length followed by its entries in the
order of the keys, a `SealWitness` as published part and client part.
The codecs of operations, seal definitions and witnesses are parameters.
-/

namespace Rgb

/-- A string of bytes. -/
abbrev Bytes := List U8

/-- A pair `StrictEncode`, `StrictDecode`.  Encoding fails if the value exceeds a size bound; decoding
reads a value from the front of its input and returns the rest. -/
structure Codec (α : Type) where
  enc : α → Option Bytes
  dec : Bytes → Option (α × Bytes)

namespace Codec
variable {α β : Type}

/-- What is encoded is decoded, and nothing else is read. -/
def Lawful (c : Codec α) : Prop := ∀ a e, c.enc a = some e → ∀ rest, c.dec (e ++ rest) = some (a, rest)

/-- What is decoded has been read off an encoding of it. -/
def Canonical (c : Codec α) : Prop :=
  ∀ bytes a rest, c.dec bytes = some (a, rest) → ∃ e, c.enc a = some e ∧ bytes = e ++ rest

/-- Decoding reads a part of its input from the front and depends on nothing else, as every decoder does
that reads byte after byte from a stream. -/
def Streaming (c : Codec α) : Prop :=
  ∀ bytes a rest, c.dec bytes = some (a, rest) →
    ∃ e, bytes = e ++ rest ∧ ∀ rest', c.dec (e ++ rest') = some (a, rest')

/-- Fields one after the other. -/
def pair (c : Codec α) (d : Codec β) : Codec (α × β) where
  enc p := do
    let e ← c.enc p.1
    let f ← d.enc p.2
    pure (e ++ f)
  dec bytes := do
    let (a, bytes) ← c.dec bytes
    let (b, bytes) ← d.dec bytes
    pure ((a, b), bytes)

/-- A codec for a type in bijection with the encoded one. -/
def via (c : Codec α) (f : β → α) (g : α → β) : Codec β where
  enc b := c.enc (f b)
  dec bytes := (c.dec bytes).map fun r => (g r.1, r.2)

/-- `u16`. -/
def u16 : Codec U16 where
  enc n := some [Fin.ofNat _ n.val, Fin.ofNat _ (n.val / 256)]
  dec
    | lo :: hi :: rest => some (Fin.ofNat _ (lo.val + 256 * hi.val), rest)
    | _ => none

/-- `Option`. -/
def option (c : Codec α) : Codec (Option α) where
  enc
    | none => some [0]
    | some a => (c.enc a).map ([1] ++ ·)
  dec
    | 0 :: rest => some (none, rest)
    | 1 :: rest => (c.dec rest).map fun r => (some r.1, r.2)
    | _ => none

/-- The elements one after the other. -/
def encList (c : Codec α) : List α → Option Bytes
  | [] => some []
  | a :: l => do
    let e ← c.enc a
    let f ← encList c l
    pure (e ++ f)

/-- `n` elements. -/
def decList (c : Codec α) : Nat → Bytes → Option (List α × Bytes)
  | 0, bytes => some ([], bytes)
  | n + 1, bytes => do
    let (a, bytes) ← c.dec bytes
    let (l, bytes) ← decList c n bytes
    pure (a :: l, bytes)

/-- `SmallOrdMap<K, V>`.  `check` stands for what the decoder demands of the order and uniqueness of
the keys read. -/
def smallOrdMap {K V : Type} [LinearOrder K] (check : List (K × V) → Bool) (ck : Codec K) (cv : Codec V) :
    Codec (OMap K V) where
  enc m :=
    if h : m.entries.length < 65536 then do
      let n ← u16.enc ⟨m.entries.length, h⟩
      let e ← encList (pair ck cv) m.entries
      pure (n ++ e)
    else none
  dec bytes := do
    let (n, bytes) ← u16.dec bytes
    let (l, bytes) ← decList (pair ck cv) n.val bytes
    if check l then pure (.collect l, bytes) else none

end Codec

section
variable {Seal : Type} [LinearOrder Seal] [RgbSeal Seal]

/-- `SealWitness`. -/
def SealWitness.codec (published : Codec (RgbSeal.Published Seal)) (client : Codec (RgbSeal.Client Seal)) :
    Codec (SealWitness Seal) :=
  (Codec.pair published client).via (fun w => (w.published, w.client)) (fun p => ⟨p.1, p.2⟩)

/-- `OperationSeals` (verify.rs:43-62). -/
def OperationSeals.codec (check : List (U16 × RgbSeal.Definition Seal) → Bool) (operation : Codec Operation)
    (definition : Codec (RgbSeal.Definition Seal)) (published : Codec (RgbSeal.Published Seal))
    (client : Codec (RgbSeal.Client Seal)) : Codec (OperationSeals Seal) :=
  (Codec.pair operation (Codec.pair (Codec.smallOrdMap check Codec.u16 definition)
    (Codec.option (SealWitness.codec published client)))).via
      (fun b => (b.operation, b.definedSeals, b.witness)) (fun p => ⟨p.1, p.2.1, p.2.2⟩)

/-- The codecs of the components of a bundle, and the check its decoder makes of the keys. -/
structure Fields (Seal : Type) [LinearOrder Seal] [RgbSeal Seal] where
  check : List (U16 × RgbSeal.Definition Seal) → Bool
  operation : Codec Operation
  definition : Codec (RgbSeal.Definition Seal)
  published : Codec (RgbSeal.Published Seal)
  client : Codec (RgbSeal.Client Seal)

namespace Fields
variable (F : Fields Seal)

/-- The codec of bundles. -/
def bundle : Codec (OperationSeals Seal) :=
  OperationSeals.codec F.check F.operation F.definition F.published F.client

/-- Decoding gives back what was encoded. -/
structure Lawful : Prop where
  check : ∀ m : OMap U16 (RgbSeal.Definition Seal), F.check m.entries = true
  operation : F.operation.Lawful
  definition : F.definition.Lawful
  published : F.published.Lawful
  client : F.client.Lawful

/-- The decoders read from the front. -/
structure Streaming : Prop where
  operation : F.operation.Streaming
  definition : F.definition.Streaming
  published : F.published.Streaming
  client : F.client.Streaming

/-- The decoders accept nothing but encodings. -/
structure Canonical : Prop where
  check : ∀ l, F.check l = true → ∃ m : OMap U16 (RgbSeal.Definition Seal), m.entries = l
  operation : F.operation.Canonical
  definition : F.definition.Canonical
  published : F.published.Canonical
  client : F.client.Canonical

end Fields

/-- A file holding bundles one after the other, without anything before, between or after them: what
has not been read of it yet. -/
structure File (F : Fields Seal) where
  left : Bytes

/-- The obvious reader (`ReadOperation`, verify.rs:79-87) of a file: the stream ends where the file
ends, and anything before has to be the encoding of a bundle. -/
instance fileReader (F : Fields Seal) : ReadOperation Seal (File F) where
  Error := Unit
  readOperation f := match f.left with
    | [] => (.ok none, f)
    | x :: l => match F.bundle.dec (x :: l) with
      | some (b, rest) => (.ok (some b), ⟨rest⟩)
      | none => (.error (), f)

end

end Rgb
