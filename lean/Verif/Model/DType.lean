import Verif.Basic

/-!
# Model of the enumerations: element types, plugin element types, devices, file formats

All optional cargo features (`f8e5m2`, `f64`, `u16`, `u64`, `i16`, `i64`, `cuda`, `metal`) are taken
to be enabled.
-/

namespace Hodu

/-- `DType`, crates/hodu_core/src/types/dtype.rs:6-29. -/
inductive DType where
  | bool | f8e4m3 | f8e5m2 | bf16 | f16 | f32 | f64
  | u8 | u16 | u32 | u64 | i8 | i16 | i32 | i64
  deriving Repr, DecidableEq

namespace DType

/-- Discriminants (`#[repr(u8)]`), types/dtype.rs:6-29; serialised by `serde_repr`. -/
def code : DType → Nat
  | .bool => 0 | .f8e4m3 => 1 | .f8e5m2 => 2 | .bf16 => 3 | .f16 => 4 | .f32 => 5 | .f64 => 6
  | .u8 => 7 | .u16 => 8 | .u32 => 9 | .u64 => 10 | .i8 => 11 | .i16 => 12 | .i32 => 13 | .i64 => 14

/-- Decoding of a discriminant by `serde_repr`'s derived `Deserialize_repr`, types/dtype.rs:4. -/
def ofCode : Nat → Option DType
  | 0 => some .bool | 1 => some .f8e4m3 | 2 => some .f8e5m2 | 3 => some .bf16 | 4 => some .f16
  | 5 => some .f32 | 6 => some .f64 | 7 => some .u8 | 8 => some .u16 | 9 => some .u32
  | 10 => some .u64 | 11 => some .i8 | 12 => some .i16 | 13 => some .i32 | 14 => some .i64
  | _ => none

/-- `Display for DType`, types/dtype.rs:31-58. -/
def name : DType → String
  | .bool => "bool" | .f8e4m3 => "f8e4m3" | .f8e5m2 => "f8e5m2" | .bf16 => "bf16" | .f16 => "f16"
  | .f32 => "f32" | .f64 => "f64" | .u8 => "u8" | .u16 => "u16" | .u32 => "u32" | .u64 => "u64"
  | .i8 => "i8" | .i16 => "i16" | .i32 => "i32" | .i64 => "i64"

/-- `DType::size_in_bytes`, types/dtype.rs:67-91. -/
def sizeInBytes : DType → Nat
  | .bool => 1 | .f8e4m3 => 1 | .f8e5m2 => 1 | .bf16 => 2 | .f16 => 2 | .f32 => 4 | .f64 => 8
  | .u8 => 1 | .u16 => 2 | .u32 => 4 | .u64 => 8 | .i8 => 1 | .i16 => 2 | .i32 => 4 | .i64 => 8

/-- `DType::is_bool`, types/dtype.rs:93-95. -/
def isBool : DType → Bool
  | .bool => true | _ => false

/-- `DType::is_float`, types/dtype.rs:97-106. -/
def isFloat : DType → Bool
  | .f8e4m3 | .bf16 | .f16 | .f32 | .f8e5m2 | .f64 => true
  | _ => false

/-- `DType::is_uint`, types/dtype.rs:108-118. -/
def isUint : DType → Bool
  | .u8 | .u16 | .u32 | .u64 => true
  | _ => false

/-- `DType::is_int`, types/dtype.rs:120-130. -/
def isInt : DType → Bool
  | .i8 | .i16 | .i32 | .i64 => true
  | _ => false

end DType

/-- `PluginDType`, crates/hodu_plugin/src/tensor.rs:16-47. -/
inductive PluginDType where
  | bool | f8e4m3 | f8e5m2 | bf16 | f16 | f32 | f64
  | u8 | u16 | u32 | u64 | i8 | i16 | i32 | i64
  deriving Repr, DecidableEq

namespace PluginDType

/-- Discriminants, hodu_plugin/src/tensor.rs:16-47. -/
def code : PluginDType → Nat
  | .bool => 0 | .f8e4m3 => 1 | .f8e5m2 => 2 | .bf16 => 3 | .f16 => 4 | .f32 => 5 | .f64 => 6
  | .u8 => 7 | .u16 => 8 | .u32 => 9 | .u64 => 10 | .i8 => 11 | .i16 => 12 | .i32 => 13 | .i64 => 14

/-- `PluginDType::size_in_bytes`, hodu_plugin/src/tensor.rs:51-58. -/
def sizeInBytes : PluginDType → Nat
  | .bool | .f8e4m3 | .f8e5m2 | .u8 | .i8 => 1
  | .bf16 | .f16 | .u16 | .i16 => 2
  | .f32 | .u32 | .i32 => 4
  | .f64 | .u64 | .i64 => 8

/-- `PluginDType::name`, hodu_plugin/src/tensor.rs:61-79. -/
def name : PluginDType → String
  | .bool => "bool" | .f8e4m3 => "f8e4m3" | .f8e5m2 => "f8e5m2" | .bf16 => "bf16" | .f16 => "f16"
  | .f32 => "f32" | .f64 => "f64" | .u8 => "u8" | .u16 => "u16" | .u32 => "u32" | .u64 => "u64"
  | .i8 => "i8" | .i16 => "i16" | .i32 => "i32" | .i64 => "i64"

/-- The match of `PluginDType::from_str`, hodu_plugin/src/tensor.rs:119-136, on the lower-cased
string. -/
def ofLower (s : String) : Option PluginDType :=
  if s = "bool" then some .bool else if s = "f8e4m3" then some .f8e4m3
  else if s = "f8e5m2" then some .f8e5m2 else if s = "bf16" then some .bf16
  else if s = "f16" then some .f16 else if s = "f32" then some .f32
  else if s = "f64" then some .f64 else if s = "u8" then some .u8
  else if s = "u16" then some .u16 else if s = "u32" then some .u32
  else if s = "u64" then some .u64 else if s = "i8" then some .i8
  else if s = "i16" then some .i16 else if s = "i32" then some .i32
  else if s = "i64" then some .i64 else none

/-- `PluginDType::from_str`, hodu_plugin/src/tensor.rs:118-137.  Simplification: `to_lowercase` is
ASCII lower-casing (no recognised name contains another character). -/
def fromStr (s : String) : Option PluginDType := ofLower (s.map Char.toLower)

/-- `PluginDType::is_float`, hodu_plugin/src/tensor.rs:82-87. -/
def isFloat : PluginDType → Bool
  | .f8e4m3 | .f8e5m2 | .bf16 | .f16 | .f32 | .f64 => true
  | _ => false

/-- `PluginDType::is_integer`, hodu_plugin/src/tensor.rs:90-95. -/
def isInteger : PluginDType → Bool
  | .u8 | .u16 | .u32 | .u64 | .i8 | .i16 | .i32 | .i64 => true
  | _ => false

/-- `PluginDType::is_signed`, hodu_plugin/src/tensor.rs:98-112. -/
def isSigned : PluginDType → Bool
  | .f8e4m3 | .f8e5m2 | .bf16 | .f16 | .f32 | .f64 | .i8 | .i16 | .i32 | .i64 => true
  | _ => false

/-- `plugin_dtype_to_core`, hodu-cli/src/tensor/saver.rs:35-54 (same table in
hodu-cli/src/commands/run.rs:520-). -/
def toCore : PluginDType → DType
  | .bool => .bool | .f8e4m3 => .f8e4m3 | .f8e5m2 => .f8e5m2 | .bf16 => .bf16 | .f16 => .f16
  | .f32 => .f32 | .f64 => .f64 | .u8 => .u8 | .u16 => .u16 | .u32 => .u32 | .u64 => .u64
  | .i8 => .i8 | .i16 => .i16 | .i32 => .i32 | .i64 => .i64

/-- `core_dtype_to_plugin`, hodu-cli/src/tensor/loader.rs:112-131 (same table in
hodu-cli/src/commands/run.rs:500-518 and inspect.rs:519-). -/
def ofCore : DType → PluginDType
  | .bool => .bool | .f8e4m3 => .f8e4m3 | .f8e5m2 => .f8e5m2 | .bf16 => .bf16 | .f16 => .f16
  | .f32 => .f32 | .f64 => .f64 | .u8 => .u8 | .u16 => .u16 | .u32 => .u32 | .u64 => .u64
  | .i8 => .i8 | .i16 => .i16 | .i32 => .i32 | .i64 => .i64

end PluginDType

/-- `Device`, crates/hodu_core/src/types/device.rs:4-11. -/
inductive Device where
  | cpu
  | cuda (id : Nat)
  | metal
  deriving Repr, DecidableEq

/-- Encoding of `set_runtime_device`, tensor/creation.rs:29-43: CUDA ids above 15 panic. -/
def Device.encode : Device → Res Nat
  | .cpu => .ok 0
  | .cuda id => if 15 < id then .panic else .ok (id + 1)
  | .metal => .ok 17

/-- Decoding of `get_runtime_device`, tensor/creation.rs:16-26. -/
def Device.decode (code : Nat) : Device :=
  if code = 0 then .cpu
  else if 1 ≤ code ∧ code ≤ 16 then .cuda (code - 1)
  else if code = 17 then .metal
  else .cpu

/-- `Display for Device`, types/device.rs:13-23. -/
def Device.name : Device → String
  | .cpu => "cpu"
  | .cuda id => "cuda::" ++ toString id
  | .metal => "Metal"

/-- `Format`, types/format.rs:2-9. -/
inductive Format where
  | hdt | json
  deriving Repr, DecidableEq

/-- `Format::from_extension`, types/format.rs:12-19 (ASCII lower-casing). -/
def Format.fromExtension (ext : String) : Option Format :=
  let e := ext.map Char.toLower
  if e = "hdt" then some .hdt else if e = "json" then some .json else none

/-- `Format::extension`, types/format.rs:27-32. -/
def Format.extension : Format → String
  | .hdt => "hdt" | .json => "json"

end Hodu
