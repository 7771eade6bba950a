import Verif.Casts.Spec

/-!
# `MathBuilder::cast`

/repo/src/Dialect/Mlir/DialectBuilder.cpp 845–1103.  Vectors are converted element by element, so that
only elements are modelled here.
-/

namespace Verif.Casts
open Scalar (Num)

/-- A value; code that an assertion or the verifier of MLIR rejects; or a value that LLVM leaves open. -/
inductive Res (α : Type) where
  | ok (a : α)
  | invalid
  | poison

def Res.bind {α β : Type} : Res α → (α → Res β) → Res β
  | .ok a, f => f a
  | .invalid, _ => .invalid
  | .poison, _ => .poison

/-! ## Operations of the dialect `arith`: they take and give integers without a sign. -/

/-- `arith.extui`. -/
def extUI (d : Ty) : V → Res V
  | .int w false b =>
    match d with
    | .int w' false => if w < w' then .ok (.int w' false (b.setWidth w')) else .invalid
    | _ => .invalid
  | _ => .invalid

/-- `arith.extsi`. -/
def extSI (d : Ty) : V → Res V
  | .int w false b =>
    match d with
    | .int w' false => if w < w' then .ok (.int w' false (b.signExtend w')) else .invalid
    | _ => .invalid
  | _ => .invalid

/-- `arith.trunci`. -/
def truncI (d : Ty) : V → Res V
  | .int w false b =>
    match d with
    | .int w' false => if w' < w then .ok (.int w' false (b.setWidth w')) else .invalid
    | _ => .invalid
  | _ => .invalid

/-- `arith.index_cast` between indices and 64 bits. -/
def indexCast (d : Ty) : V → Res V
  | .int 64 false b => match d with | .index => .ok (.index b) | _ => .invalid
  | .index b => match d with | .int 64 false => .ok (.int 64 false b) | _ => .invalid
  | _ => .invalid

/-- `arith.fptoui`: poison if the number does not fit. -/
noncomputable def fpToUI (d : Ty) : V → Res V
  | .flt _ x =>
    match d with
    | .int w false =>
      match x with
      | .fin a => if 0 ≤ chop a ∧ chop a ≤ 2 ^ w - 1 then .ok (.int w false (BitVec.ofInt w (chop a)))
        else .poison
      | _ => .poison
    | _ => .invalid
  | _ => .invalid

/-- `arith.fptosi`: poison if the number does not fit. -/
noncomputable def fpToSI (d : Ty) : V → Res V
  | .flt _ x =>
    match d with
    | .int w false =>
      match x with
      | .fin a => if -2 ^ (w - 1) ≤ chop a ∧ chop a ≤ 2 ^ (w - 1) - 1 then
          .ok (.int w false (BitVec.ofInt w (chop a)))
        else .poison
      | _ => .poison
    | _ => .invalid
  | _ => .invalid

/-- `arith.uitofp`. -/
noncomputable def uiToFP (rnd : FTy → ℝ → Num) (d : Ty) : V → Res V
  | .int _ false b => match d with | .flt f => .ok (.flt f (rnd f (b.toNat : ℝ))) | _ => .invalid
  | _ => .invalid

/-- `arith.sitofp`. -/
noncomputable def siToFP (rnd : FTy → ℝ → Num) (d : Ty) : V → Res V
  | .int _ false b => match d with | .flt f => .ok (.flt f (rnd f (b.toInt : ℝ))) | _ => .invalid
  | _ => .invalid

/-- `arith.extf`. -/
def extF (d : Ty) : V → Res V
  | .flt f x =>
    match d with
    | .flt g => if f.width < g.width then .ok (.flt g x) else .invalid
    | _ => .invalid
  | _ => .invalid

/-- Rounding of a number, infinities and NaN stay. -/
def narrow (rnd : FTy → ℝ → Num) (g : FTy) : Num → Num
  | .fin a => rnd g a
  | x => x

/-- `arith.truncf`. -/
def truncF (rnd : FTy → ℝ → Num) (d : Ty) : V → Res V
  | .flt f x =>
    match d with
    | .flt g =>
      if g.width < f.width then .ok (.flt g (narrow rnd g x)) else .invalid
    | _ => .invalid
  | _ => .invalid

/-- `castToSignless` (845–853): the value must have a sign in its type. -/
def castToSignless (width : ℕ) : V → Res V
  | .int w true b => if w = width then .ok (.int w false b) else .invalid
  | _ => .invalid

/-- `castToUnsigned` (855–862). -/
def castToUnsigned (width : ℕ) : V → Res V
  | .int w _ b => if w = width then .ok (.int w true b) else .invalid
  | _ => .invalid

/-- `constant(type, 0)` has no case for bf16 (646–698). -/
def hasConstant : Ty → Bool
  | .flt .bf16 => false
  | _ => true

/-- `neq` with zero (629–638): `arith.cmpi ne`, or `arith.cmpf one`, which is false for NaN. -/
noncomputable def neqZero : V → Res V
  | .int _ false b => .ok (.int 1 false (if b = 0 then 0 else 1))
  | .flt f x =>
    if hasConstant (.flt f) then
      .ok (.int 1 false (open Classical in
        match x with | .nan => 0 | .fin a => if a = 0 then 0 else 1 | _ => 1))
    else .invalid
  | _ => .invalid

/-! ## The function -/

/-- Width of an element (937–941). -/
def Ty.bits : Ty → ℕ
  | .int w _ => w
  | .flt f => f.width
  | .index => 64

/-- Booleans to others (986–997); `dest` is what `index` is replaced by. -/
def fromBool (dest : Ty) (destIsIndex : Bool) (v : V) : Res V :=
  (extUI dest v).bind fun r => if destIsIndex then indexCast .index r else .ok r

/-- Others to booleans (999–1012). -/
noncomputable def toBool (v : V) : Res V :=
  match v with
  | .int w true _ => (castToSignless w v).bind neqZero
  | _ => neqZero v

/-- Float to float (1014–1021). -/
def floatToFloat (rnd : FTy → ℝ → Num) (dest : Ty) (v : V) : Res V :=
  if v.ty.bits < dest.bits then extF dest v
  else if dest.bits < v.ty.bits then truncF rnd dest v
  else .invalid

/-- Float to integer (1023–1040). -/
noncomputable def floatToInt (w : ℕ) (uns destIsIndex : Bool) (v : V) : Res V :=
  if uns then (fpToUI (.int w false) v).bind (castToUnsigned w)
  else (fpToSI (.int w false) v).bind fun r => if destIsIndex then indexCast .index r else .ok r

/-- Integer to float (1042–1052). -/
noncomputable def intToFloat (rnd : FTy → ℝ → Num) (uns : Bool) (dest : Ty) (v : V) : Res V :=
  if uns then (castToSignless v.ty.bits v).bind (uiToFP rnd dest) else siToFP rnd dest v

/-- Integer without a sign to integer (1057–1079). -/
def unsignedToInt (w : ℕ) (uns : Bool) (w' : ℕ) (v : V) : Res V :=
  if w' = w ∧ uns = false then castToSignless w' v
  else if w' = w then .invalid
  else (castToSignless w' v).bind fun c =>
    (if w' < w then extUI (.int w false) c else truncI (.int w false) c).bind fun c =>
      if uns then castToUnsigned w c else .ok c

/-- Extension or truncation to the type `dest` (1087–1092). -/
def resize (dest : Ty) (w w' : ℕ) (v : V) : Res V :=
  if w' < w then extSI dest v else if w < w' then truncI dest v else .ok v

/-- Integer with a sign to integer (1080–1099). -/
def signedToInt (w : ℕ) (uns destIsIndex : Bool) (w' : ℕ) (v : V) : Res V :=
  if w' = w ∧ uns = true then castToUnsigned w' v
  else (resize (.int w uns) w w' v).bind fun r =>
    if destIsIndex then indexCast .index r
    else if uns then castToUnsigned w r else .ok r

/-- The part of `cast` that does not call itself (986–1103). -/
noncomputable def direct (rnd : FTy → ℝ → Num) (dest : Ty) (destIsIndex : Bool) (v : V) : Res V :=
  match v, dest with
  | .int w' uns' _, .flt _ => if w' = 1 then uiToFP rnd dest v else intToFloat rnd uns' dest v
  | .int w' uns' _, .int w uns =>
    if w' = 1 then fromBool dest destIsIndex v
    else if w = 1 then toBool v
    else if uns' then unsignedToInt w uns w' v else signedToInt w uns destIsIndex w' v
  | .flt _ _, .flt _ => floatToFloat rnd dest v
  | .flt _ _, .int w uns => if w = 1 then toBool v else floatToInt w uns destIsIndex v
  | _, _ => .invalid

/-- After indices are replaced by integers of 64 bits: conversions between floats and shorter integers
take two steps (946–984), where the two recursive calls do not go through here again. -/
noncomputable def twoSteps (rnd : FTy → ℝ → Num) (dest : Ty) (destIsIndex : Bool) (v : V) : Res V :=
  match v, dest with
  | .flt f _, .int w uns =>
    if w < f.width ∧ 1 < w then (direct rnd (.int f.width uns) false v).bind (direct rnd dest false)
    else direct rnd dest destIsIndex v
  | .int w' uns' _, .flt f =>
    if w' < f.width then (direct rnd (.int f.width uns') false v).bind (direct rnd dest false)
    else direct rnd dest destIsIndex v
  | _, _ => direct rnd dest destIsIndex v

/-- Source of type index (910–917). -/
def sourceOf : V → Res V
  | .index b => indexCast (.int 64 false) (.index b)
  | v => .ok v

/-- `MathBuilder::cast` (866–1103). -/
noncomputable def cast (rnd : FTy → ℝ → Num) (dest : Ty) (v : V) : Res V :=
  if v.ty = dest then .ok v
  else (sourceOf v).bind fun v =>
    match dest with
    | .index => twoSteps rnd (.int 64 false) true v
    | d => twoSteps rnd d false v

end Verif.Casts
