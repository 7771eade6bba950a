import Verif.Builder.VersionTable

/-!
Model of the choice of the version of an operation.

Source: /repo/src/Builder/FrontendDialectTransformer.cpp 1131-1207.
-/

namespace Verif.Builder

/-- The newest version that is not newer than the opset of the model, else the oldest (1168-1176). -/
def newestValid (opsets : List ℕ) (opset : ℕ) : ℕ := (opsets.find? (· ≤ opset)).getD (opsets.getLastD 0)

/-- The version of the handler, `none` for the newest, which has no suffix (1190-1206). -/
def pickVersion (supported : List ℕ) (v : ℕ) : Option ℕ :=
  if supported.headD 0 ≤ v then none
  else supported.reverse.find? fun s => v ≤ s ∧ s ≠ supported.headD 0

/-- `GetImportVersionOfNode`: `imports` is the opset import of the model (`GetOpsetImportsFromProto`, 80-87), `entry` the row of the table, with
an empty list of versions when it is not in one of the maps. -/
def importVersion (imports : String → Option ℕ) (domain : String) (entry : OpVersions) : Option ℕ :=
  match imports domain with
  | none => none
  | some opset =>
    if entry.supported = [] ∨ entry.opsets = [] then none
    else pickVersion entry.supported (newestValid entry.opsets opset)

end Verif.Builder
