import Verif.Model.ReadBack
import Verif.Model.Float

/-!
# The JSON tensor format

Models `crates/hodu_core/src/format/json.rs`. Elements are bit patterns, as in `ReadBack`.

`serde_json` (a dependency, version 1.0.145 without the feature `float_roundtrip`, see
/repo/Cargo.toml:38) is modelled by what writing a `Value` as text and parsing the text returns:
everything but floating-point numbers comes back unchanged; a floating-point number is printed in
decimal (`pr`, the shortest decimal that identifies it, by the crate `ryu`) and the decimal is parsed
by `f64_from_parts`: the digits as a `u64` converted to `f64`, multiplied or divided by a power of
ten.
-/

namespace Hodu.Json
open Flt

/-- `serde_json::Value`; integers and floating-point numbers are the variants of `Number`, the
latter as the bit pattern of an `f64`. Used throughout crates/hodu_core/src/format/json.rs. -/
inductive JVal where
  | null
  | bool (b : Bool)
  | int (z : Int)
  | float (b : Nat)
  | str (s : String)
  | arr (l : List JVal)
  | obj (l : List (String × JVal))

/-- `POW10[j]` of `serde_json` (`1e0` to `1e308`). -/
def pow10 (j : Nat) : Nat := enc f64 (10 ^ j * 2 ^ 1074) 1

/-- `f *= pow` on magnitudes of `f64` (IEEE 754), in `serde_json`'s `f64_from_parts`. -/
def fmul (a b : Nat) : Nat := enc f64 (mag f64 a * mag f64 b) (2 ^ 1074)

/-- `f /= pow` on magnitudes of `f64` (IEEE 754), in `serde_json`'s `f64_from_parts`. -/
def fdiv (a b : Nat) : Nat := enc f64 (mag f64 a * 2 ^ 1074) (mag f64 b)

/-- The loop of `serde_json`'s `f64_from_parts`: `none` is the error "number out of range". -/
def scaleLoop : Nat → Nat → Int → Option Nat
  | 0, _, _ => none
  | fuel + 1, f, e =>
    if e.natAbs ≤ 308 then
      if 0 ≤ e then
        let g := fmul f (pow10 e.natAbs)
        if g < f64.top then some g else none
      else some (fdiv f (pow10 e.natAbs))
    else if f = 0 then some f
    else if 0 ≤ e then none
    else scaleLoop fuel (fdiv f (pow10 308)) (e + 308)

/-- `serde_json`'s `f64_from_parts` on the magnitude: the value read from `sig · 10 ^ e`. -/
def fromParts (sig : Nat) (e : Int) : Option Nat :=
  scaleLoop (e.natAbs + 1) (enc f64 (sig * 2 ^ 1074) 1) e

/-- A floating-point number after `to_string_pretty` and `from_str`
(crates/hodu_core/src/format/json.rs:62-73); the sign is printed separately. -/
def reread (pr : Nat → Nat × Int) (b : Nat) : Option Nat :=
  (fromParts (pr (b % 2 ^ 63)).1 (pr (b % 2 ^ 63)).2).map fun p => b / 2 ^ 63 * 2 ^ 63 + p

mutual
/-- `serde_json::from_str(serde_json::to_string_pretty(v))`
(crates/hodu_core/src/format/json.rs:62-73). -/
def reparse (pr : Nat → Nat × Int) : JVal → Res JVal
  | .float b => match reread pr b with
    | some b' => .ok (.float b')
    | none => .err
  | .arr l => (reparseL pr l).bind fun l' => .ok (.arr l')
  | .obj l => (reparseF pr l).bind fun l' => .ok (.obj l')
  | v => .ok v
@[inherit_doc reparse] def reparseL (pr : Nat → Nat × Int) : List JVal → Res (List JVal)
  | [] => .ok []
  | v :: l => (reparse pr v).bind fun v' => (reparseL pr l).bind fun l' => .ok (v' :: l')
@[inherit_doc reparse] def reparseF (pr : Nat → Nat × Int) :
    List (String × JVal) → Res (List (String × JVal))
  | [] => .ok []
  | (k, v) :: l => (reparse pr v).bind fun v' => (reparseF pr l).bind fun l' => .ok ((k, v') :: l')
end

/-- `dtype_to_str`, crates/hodu_core/src/format/json.rs:152-179. -/
def dtypeToStr : DType → String
  | .bool => "bool" | .f8e4m3 => "f8e4m3" | .f8e5m2 => "f8e5m2" | .bf16 => "bf16" | .f16 => "f16"
  | .f32 => "f32" | .f64 => "f64" | .u8 => "u8" | .u16 => "u16" | .u32 => "u32" | .u64 => "u64"
  | .i8 => "i8" | .i16 => "i16" | .i32 => "i32" | .i64 => "i64"

/-- `str_to_dtype` without the conversion to lower case,
crates/hodu_core/src/format/json.rs:181-207. -/
def strToDtype (s : String) : Option DType :=
  if s = "bool" then some .bool else if s = "f8e4m3" then some .f8e4m3
  else if s = "f8e5m2" then some .f8e5m2 else if s = "bf16" then some .bf16
  else if s = "f16" then some .f16 else if s = "f32" then some .f32
  else if s = "f64" then some .f64 else if s = "u8" then some .u8
  else if s = "u16" then some .u16 else if s = "u32" then some .u32
  else if s = "u64" then some .u64 else if s = "i8" then some .i8
  else if s = "i16" then some .i16 else if s = "i32" then some .i32
  else if s = "i64" then some .i64 else none

/-- Format of a floating-point element type (crates/hodu_core/src/format/json.rs:215-278). -/
def fmtOf : DType → Fmt
  | .f8e4m3 => f8e4m3 | .f8e5m2 => f8e5m2 | .bf16 => bf16 | .f16 => f16 | .f32 => f32 | _ => f64

/-- The integer a bit pattern of an integer element type stands for (two's complement for signed
types; Rust core). -/
def intOf (dt : DType) (v : Nat) : Int :=
  if dt.isInt ∧ 256 ^ dt.sizeInBytes ≤ 2 * v then (v : Int) - (256 ^ dt.sizeInBytes : Nat) else v

/-- One element in `tensor_data_to_json`, crates/hodu_core/src/format/json.rs:209-341:
`Number::from_f64` refuses infinities and NaN, which become `Null`. -/
def elemToJson (dt : DType) (v : Nat) : JVal :=
  if dt.isBool then .bool (v ≠ 0)
  else if dt.isFloat then
    let b := if dt = .f64 then v else widen (fmtOf dt) v
    if b % 2 ^ 63 < f64.top then .float b else .null
  else .int (intOf dt v)

/-- `Value::as_f64`: also integers convert. -/
def asF64 : JVal → Option Nat
  | .float b => some b
  | .int z => some ((if z < 0 then 2 ^ 63 else 0) + enc f64 (z.natAbs * 2 ^ 1074) 1)
  | _ => none

/-- One element in `json_data_to_tensor`, crates/hodu_core/src/format/json.rs:344-512: `as_bool`,
`as_f64`, `as_u64` or `as_i64` and then a truncating `as` cast. -/
def elemOfJson (dt : DType) (j : JVal) : Option Nat :=
  if dt.isBool then
    match j with
    | .bool b => some (if b then 1 else 0)
    | _ => none
  else if dt.isFloat then
    (asF64 j).map fun b => if dt = .f64 then b else narrow (fmtOf dt) b
  else
    match j with
    | .int z =>
      if dt.isUint then
        if 0 ≤ z ∧ z < 2 ^ 64 then some (z.toNat % 256 ^ dt.sizeInBytes) else none
      else if -(2 ^ 63) ≤ z ∧ z < 2 ^ 63 then some (z % (256 ^ dt.sizeInBytes : Nat)).toNat else none
    | _ => none

/-- `tensor_to_json`, crates/hodu_core/src/format/json.rs:103-114. -/
def tensorToJson (dt : DType) (t : Tensor Nat) : JVal :=
  .obj [("shape", .arr (t.dims.map fun (d : Nat) => .int d)), ("dtype", .str (dtypeToStr dt)),
    ("data", .arr (t.toFlattenVec.map (elemToJson dt)))]

/-- `Value::as_u64` then `as usize`, crates/hodu_core/src/format/json.rs:126-133. -/
def asU64 : JVal → Option Nat
  | .int z => if 0 ≤ z ∧ z < 2 ^ 64 then some z.toNat else none
  | _ => none

/-- `obj.get(k).and_then(|v| v.as_array())`, crates/hodu_core/src/format/json.rs:121-124, 144-147. -/
def getArr (l : List (String × JVal)) (k : String) : Option (List JVal) :=
  match l.lookup k with
  | some (.arr a) => some a
  | _ => none

/-- `obj.get(k).and_then(|v| v.as_str())`, crates/hodu_core/src/format/json.rs:137-140. -/
def getStr (l : List (String × JVal)) (k : String) : Option String :=
  match l.lookup k with
  | some (.str a) => some a
  | _ => none

/-- `Tensor::from_slice` on a flat vector, crates/hodu_core/src/tensor/creation.rs:66-92. -/
def fromSlice (data dims : List Nat) : Res (Tensor Nat) :=
  if shapeSize dims ≠ data.length then .err
  else .ok { storage := data, layout := Layout.fromShape dims }

/-- `json_to_tensor`, crates/hodu_core/src/format/json.rs:116-150. -/
def jsonToTensor : JVal → Res (DType × Tensor Nat)
  | .obj l =>
    match (getArr l "shape").bind (·.mapM asU64), (getStr l "dtype").bind strToDtype,
      getArr l "data" with
    | some dims, some dt, some data =>
      match data.mapM (elemOfJson dt) with
      | some vals => (fromSlice vals dims).bind fun t => .ok (dt, t)
      | none => .err
    | _, _, _ => .err
  | _ => .err

/-- `serialize` followed by `deserialize` (so also `save` and `load`),
crates/hodu_core/src/format/json.rs:34-46, 62-73. -/
def saveLoad (pr : Nat → Nat × Int) (dt : DType) (t : Tensor Nat) : Res (DType × Tensor Nat) :=
  (reparse pr (tensorToJson dt t)).bind jsonToTensor

/-- `serialize_many`, crates/hodu_core/src/format/json.rs:76-83. -/
def manyToJson (ts : List (String × DType × Tensor Nat)) : JVal :=
  .obj (ts.map fun x => (x.1, tensorToJson x.2.1 x.2.2))

/-- `deserialize_many`, crates/hodu_core/src/format/json.rs:86-101. -/
def manyOfJson : JVal → Res (List (String × DType × Tensor Nat))
  | .obj l => Res.mapL (fun x => (jsonToTensor x.2).bind fun t => .ok (x.1, t)) l
  | _ => .err

/-- `serialize_many` followed by `deserialize_many`, crates/hodu_core/src/format/json.rs:48-59. -/
def saveLoadMany (pr : Nat → Nat × Int) (ts : List (String × DType × Tensor Nat)) :
    Res (List (String × DType × Tensor Nat)) :=
  (reparse pr (manyToJson ts)).bind manyOfJson

end Hodu.Json
