import Verif.Model.Tables
/-!
# The integer types of the generated tables

`minimum_signed_type`, `minimum_unsigned_type` (mod.rs:484-502) and their uses in `generate_source`.
-/

namespace Pomelo

/-- The types that `minimum_signed_type` and `minimum_unsigned_type` return (mod.rs:484-502) -/
inductive IntTy where
  | i8 | i16 | i32 | u8 | u16 | u32
  deriving DecidableEq, Repr

/-- `minimum_signed_type` (mod.rs:484-492) -/
def minimumSignedType (max : Nat) : IntTy :=
  if max < 0x80 then .i8 else if max < 0x8000 then .i16 else .i32

/-- `minimum_unsigned_type` (mod.rs:494-502) -/
def minimumUnsignedType (max : Nat) : IntTy :=
  if max < 0x100 then .u8 else if max < 0x10000 then .u16 else .u32

/-- `yycodetype` (mod.rs:2100), the element type of `YY_LOOKAHEAD` (mod.rs:2453) and `YY_RULE_INFO` (mod.rs:2554) and
the type of `YYWILDCARD` (mod.rs:2121). `symbols.len()` is `YYNOCODE` (mod.rs:2102). -/
def Tables.codeType (t : Tables) : IntTy := minimumSignedType t.noCode

/-- `yyactiontype` (mod.rs:2101), the element type of `YY_DEFAULT` (mod.rs:2507) -/
def Tables.actionType (t : Tables) : IntTy := minimumUnsignedType (t.nState + t.nRule + 5)

/-- `max_tkn_ofst` and `max_nt_ofst` (mod.rs:2283-2286, 2316, 2337), read off the finished table: the entries of states
without a row are negative. -/
def maxEntry (l : List Int) : Nat := (l.foldl max 0).toNat

/-- `yy_shift_ofst_type` (mod.rs:2467) -/
def Tables.shiftOfstType (t : Tables) : IntTy := minimumSignedType (maxEntry t.shiftOfst)

/-- `yy_reduce_ofst_type` (mod.rs:2489) -/
def Tables.reduceOfstType (t : Tables) : IntTy := minimumSignedType (maxEntry t.reduceOfst)

end Pomelo
