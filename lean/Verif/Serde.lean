import Verif.Model

/-!
# The serde representation of `OperationSeals`

With feature `serde`, `OperationSeals` derives `Serialize` and `Deserialize` with
`rename_all = "camelCase"` (verify.rs:45-54).  The derive macro is in `serde`, which is not part of
`/repo`; modelled is the code it generates: serialization writes the fields in the order of declaration;
deserialization from a map takes the fields in any order, skips unknown ones, fails on fields given twice
and on missing ones, except that a missing `Option` is `None`; deserialization from a sequence takes the
fields in the order of declaration and fails unless there are exactly as many.
The representations of the fields are parameters; which of several errors is reported is not modelled.
-/

namespace Rgb

/-- `Serialize` and `Deserialize` for a field, `J` being the values of the data format. -/
structure Repr (J α : Type) where
  ser : α → J
  de : J → Option α

/-- What a data format offers a struct: a map, or a sequence. -/
inductive Document (J : Type) where
  | map (entries : List (String × J))
  | seq (items : List J)

section
variable {Seal : Type} [LinearOrder Seal] [RgbSeal Seal] {J : Type}

/-- The representations of the three fields (verify.rs:56-61). -/
structure FieldReprs (Seal : Type) [LinearOrder Seal] [RgbSeal Seal] (J : Type) where
  operation : Repr J Operation
  definedSeals : Repr J (OMap U16 (RgbSeal.Definition Seal))
  witness : Repr J (Option (SealWitness Seal))

/-- `Serialize::serialize`. -/
def OperationSeals.serialize (f : FieldReprs Seal J) (self : OperationSeals Seal) : Document J :=
  .map [("operation", f.operation.ser self.operation), ("definedSeals", f.definedSeals.ser self.definedSeals),
    ("witness", f.witness.ser self.witness)]

/-- The local variables of `visit_map`. -/
structure Slots (Seal : Type) [LinearOrder Seal] [RgbSeal Seal] where
  operation : Option Operation := none
  definedSeals : Option (OMap U16 (RgbSeal.Definition Seal)) := none
  witness : Option (Option (SealWitness Seal)) := none

/-- The loop of `visit_map`. -/
def Slots.visit (f : FieldReprs Seal J) : Slots Seal → List (String × J) → Option (Slots Seal)
  | slots, [] => some slots
  | slots, (key, x) :: rest =>
    match key with
    | "operation" => if slots.operation.isSome then none else do
        let y ← f.operation.de x
        visit f { slots with operation := some y } rest
    | "definedSeals" => if slots.definedSeals.isSome then none else do
        let y ← f.definedSeals.de x
        visit f { slots with definedSeals := some y } rest
    | "witness" => if slots.witness.isSome then none else do
        let y ← f.witness.de x
        visit f { slots with witness := some y } rest
    | _ => visit f slots rest

/-- `Deserialize::deserialize`. -/
def OperationSeals.deserialize (f : FieldReprs Seal J) : Document J → Option (OperationSeals Seal)
  | .map entries => do
    let slots ← Slots.visit f {} entries
    let operation ← slots.operation
    let definedSeals ← slots.definedSeals
    pure { operation, definedSeals, witness := slots.witness.getD none }
  | .seq [x, y, z] => do
    let operation ← f.operation.de x
    let definedSeals ← f.definedSeals.de y
    let witness ← f.witness.de z
    pure { operation, definedSeals, witness }
  | .seq _ => none

end

end Rgb
