import Verif.Rpcgen.Gen
import Verif.Rpcgen.Parser
/-!
# The unit tests of `rpcgen`, run on the model

Not proofs of anything about the program: evidence that the model is the program. Every `#[test]` of
`rpcgen/src/parser.rs` (830-1615) and `rpcgen/src/gen_code.rs` (982-1131) is one `example`, in the order
of the source and with the name of the test before it. The kernel evaluates the model.
-/

set_option maxRecDepth 100000

namespace Xdr.Rpcgen.Tests

/-- `type_specifier` with room for the nesting of the tests. -/
def ts : P TypeSpecifier := type_specifier 5

/-! ## parser.rs -/

-- assign_ok
example : assign c!"a = b" = .ok (⟨c!"a", .identifier c!"b"⟩) c!"" := by rfl

-- case_spec_ok
example : case_spec ts c!"case A:\ncase B:\nvoid;" = .ok (.mk [.identifier c!"A", .identifier c!"B"] .void) c!"" := by rfl

-- commnet0_0_ok
example : comment0 c!"" = .ok (none) c!"" := by rfl

-- commnet0_1_ok
example : comment0 c!"/* a */" = .ok (some [c!" a "]) c!"" := by rfl

-- commnet0_2_ok
example : comment0 c!"/* a */ /* b */" = .ok (some [c!" a ", c!" b "]) c!"" := by rfl

-- commnet_line_ok
example : comment_line c!"%a\n" = .ok (c!"a") c!"" := by rfl

-- constant_ok_decimal_minus
example : constant c!"-1" = .ok (.decimal c!"-1") c!"" := by rfl

-- constant_ok_decimal_plus
example : constant c!"1" = .ok (.decimal c!"1") c!"" := by rfl

-- constant_ok_hex
example : constant c!"0x0102" = .ok (.hex c!"0102") c!"" := by rfl

-- constant_ok_oct
example : constant c!"0102" = .ok (.octal c!"102") c!"" := by rfl

-- constant_def_ok
example : constant_def c!"const a = 1;" = .ok (⟨c!"a", .constant (.decimal c!"1")⟩) c!"" := by rfl

-- constatn_value_dec_i32
example : (Constant.decimal c!"10").value .i32 = .ok 10 := by rfl

-- constatn_value_hex_i32
example : (Constant.hex c!"10").value .i32 = .ok 16 := by rfl

-- constatn_value_oct_i32
example : (Constant.octal c!"10").value .i32 = .ok 8 := by rfl

-- constatn_value_err_i32
example : (Constant.decimal c!"a").value .i32 = .err (.parse (.decimal c!"a")) := by rfl

-- constatn_value_dec_u32
example : (Constant.decimal c!"10").value .u32 = .ok 10 := by rfl

-- constatn_value_hex_u32
example : (Constant.hex c!"10").value .u32 = .ok 16 := by rfl

-- constatn_value_oct_u32
example : (Constant.octal c!"10").value .u32 = .ok 8 := by rfl

-- constatn_value_err_u32
example : (Constant.decimal c!"a").value .u32 = .err (.parse (.decimal c!"a")) := by rfl

-- constatn_value_dec_u64
example : (Constant.decimal c!"10").value .u64 = .ok 10 := by rfl

-- constatn_value_hex_u64
example : (Constant.hex c!"10").value .u64 = .ok 16 := by rfl

-- constatn_value_oct_u64
example : (Constant.octal c!"10").value .u64 = .ok 8 := by rfl

-- constatn_value_err_u64
example : (Constant.decimal c!"a").value .u64 = .err (.parse (.decimal c!"a")) := by rfl

-- constatn_value_dec_usize
example : (Constant.decimal c!"10").value .usize = .ok 10 := by rfl

-- constatn_value_hex_usize
example : (Constant.hex c!"10").value .usize = .ok 16 := by rfl

-- constatn_value_oct_usize
example : (Constant.octal c!"10").value .usize = .ok 8 := by rfl

-- constatn_value_err_usize
example : (Constant.decimal c!"a").value .usize = .err (.parse (.decimal c!"a")) := by rfl

-- declaration_variable
example : declaration ts c!"bool a" = .ok (.variable .bool c!"a") c!"" := by rfl

-- declaration_fixed_array
example : declaration ts c!"bool a[2]" = .ok (.fixedArray .bool c!"a" (.constant (.decimal c!"2"))) c!"" := by rfl

-- declaration_variable_array
example : declaration ts c!"bool a<2>" = .ok (.variableArray .bool c!"a" (some (.constant (.decimal c!"2")))) c!"" := by rfl

-- declaration_opaque_fixed_array
example : declaration ts c!"opaque a[2]" = .ok (.opaqueFixedArray c!"a" (.constant (.decimal c!"2"))) c!"" := by rfl

-- declaration_opaque_variable_array
example : declaration ts c!"opaque a<2>" = .ok (.opaqueVariableArray c!"a" (some (.constant (.decimal c!"2")))) c!"" := by rfl

-- declaration_string
example : declaration ts c!"string a<2>" = .ok (.string c!"a" (some (.constant (.decimal c!"2")))) c!"" := by rfl

-- declaration_option_variable
example : declaration ts c!"bool *a" = .ok (.optionVariable .bool c!"a") c!"" := by rfl

-- declaration_void
example : declaration ts c!"void" = .ok (.void) c!"" := by rfl

-- declaration_name_fixed_array
example : Declaration.name (.fixedArray (.int false) c!"a" (.identifier c!"b")) = some c!"a" := by rfl

-- declaration_name_opaque_fixed_array
example : Declaration.name (.opaqueFixedArray c!"a" (.identifier c!"b")) = some c!"a" := by rfl

-- declaration_name_opaque_variable_array
example : Declaration.name (.opaqueVariableArray c!"a" none) = some c!"a" := by rfl

-- declaration_name_option_variable
example : Declaration.name (.optionVariable (.int false) c!"a") = some c!"a" := by rfl

-- declaration_name_string
example : Declaration.name (.string c!"a" none) = some c!"a" := by rfl

-- declaration_name_variable
example : Declaration.name (.variable (.int false) c!"a") = some c!"a" := by rfl

-- declaration_name_variable_array
example : Declaration.name (.variableArray (.int false) c!"a" none) = some c!"a" := by rfl

-- declaration_name_void
example : Declaration.name .void = none := by rfl

-- declaration_type_specifier_fixed_array
example : Declaration.type_specifier (.fixedArray (.int false) c!"a" (.identifier c!"b")) = some (.int false) := by rfl

-- declaration_type_specifier_opaque_fixed_array
example : Declaration.type_specifier (.opaqueFixedArray c!"a" (.identifier c!"b")) = some (.identifier c!"u8") := by rfl

-- declaration_type_specifier_opaque_variable_array
example : Declaration.type_specifier (.opaqueVariableArray c!"a" none) = some (.identifier c!"u8") := by rfl

-- declaration_type_specifier_option_variable
example : Declaration.type_specifier (.optionVariable (.int false) c!"a") = some (.int false) := by rfl

-- declaration_type_specifier_string
example : Declaration.type_specifier (.string c!"a" none) = some (.identifier c!"String") := by rfl

-- declaration_type_specifier_variable
example : Declaration.type_specifier (.variable (.int false) c!"a") = some (.int false) := by rfl

-- declaration_type_specifier_variable_array
example : Declaration.type_specifier (.variableArray (.int false) c!"a" none) = some (.int false) := by rfl

-- declaration_type_specifier_void
example : Declaration.type_specifier .void = none := by rfl

-- definition_constant
example : definition ts c!"const a = 1;" = .ok (.constant ⟨c!"a", .constant (.decimal c!"1")⟩) c!"" := by rfl

-- definition_typdef
example : definition ts c!"typedef void;" = .ok (.type (.declaration .void)) c!"" := by rfl

-- enum_type_spec_1_ok
example : enum_type_spec c!"enum { a = 1 }" = .ok ([⟨c!"a", .constant (.decimal c!"1")⟩]) c!"" := by rfl

-- enum_type_spec_2_ok
example : enum_type_spec c!"enum { a = 1, b = 2}" = .ok ([⟨c!"a", .constant (.decimal c!"1")⟩, ⟨c!"b", .constant (.decimal c!"2")⟩]) c!"" := by rfl

-- identifier_err
example : identifier c!"1a" = .err := by rfl

-- identifier_ok
example : identifier c!"a1_1" = .ok (c!"a1_1") c!"" := by rfl

-- struct_type_spec_ok
example : struct_type_spec ts c!"struct { void; }" = .ok ([.void]) c!"" := by rfl

-- type_def_declaration
example : type_def ts c!"typedef void;" = .ok (.declaration .void) c!"" := by rfl

-- type_def_enum
example : type_def ts c!"enum a { b = 0  };" = .ok (.enum c!"a" [⟨c!"b", .constant (.decimal c!"0")⟩]) c!"" := by rfl

-- type_def_struct
example : type_def ts c!"struct a { void; };" = .ok (.struct c!"a" [.void]) c!"" := by rfl

-- type_def_union
example : type_def ts c!"union a switch (void) { case b : void; };" = .ok (.union c!"a" (.mk .void [.mk [.identifier c!"b"] .void] none)) c!"" := by rfl

-- type_specifier_unsigned_int
example : ts c!"unsigned int " = .ok (.int false) c!" " := by rfl

-- type_specifier_unsigned_inta
example : ts c!"unsigned inta " = .ok (.int false) c!" inta " := by rfl

-- type_specifier_int
example : ts c!"int " = .ok (.int true) c!" " := by rfl

-- type_specifier_inta
example : ts c!"inta " = .ok (.identifier c!"inta") c!" " := by rfl

-- type_specifier_unsigned_hyper
example : ts c!"unsigned hyper " = .ok (.hyper false) c!" " := by rfl

-- type_specifier_unsigned_hypera
example : ts c!"unsigned hypera " = .ok (.int false) c!" hypera " := by rfl

-- type_specifier_hyper
example : ts c!"hyper " = .ok (.hyper true) c!" " := by rfl

-- type_specifier_hypera
example : ts c!"hypera " = .ok (.identifier c!"hypera") c!" " := by rfl

-- type_specifier_unsigned_char
example : ts c!"unsigned char " = .ok (.char false) c!" " := by rfl

-- type_specifier_unsigned_chara
example : ts c!"unsigned chara " = .ok (.int false) c!" chara " := by rfl

-- type_specifier_char
example : ts c!"char " = .ok (.char true) c!" " := by rfl

-- type_specifier_chara
example : ts c!"chara " = .ok (.identifier c!"chara") c!" " := by rfl

-- type_specifier_unsigned_short
example : ts c!"unsigned short " = .ok (.short false) c!" " := by rfl

-- type_specifier_unsigned_shorta
example : ts c!"unsigned shorta " = .ok (.int false) c!" shorta " := by rfl

-- type_specifier_short
example : ts c!"short " = .ok (.short true) c!" " := by rfl

-- type_specifier_shorta
example : ts c!"shorta " = .ok (.identifier c!"shorta") c!" " := by rfl

-- type_specifier_unsigned
example : ts c!"unsigned " = .ok (.int false) c!" " := by rfl

-- type_specifier_unsigneda
example : ts c!"unsigneda " = .ok (.identifier c!"unsigneda") c!" " := by rfl

-- type_specifier_float
example : ts c!"float " = .ok (.float) c!" " := by rfl

-- type_specifier_floata
example : ts c!"floata " = .ok (.identifier c!"floata") c!" " := by rfl

-- type_specifier_double
example : ts c!"double " = .ok (.double) c!" " := by rfl

-- type_specifier_doublea
example : ts c!"doublea " = .ok (.identifier c!"doublea") c!" " := by rfl

-- value_constant_ok
example : value c!"0" = .ok (.constant (.decimal c!"0")) c!"" := by rfl

-- value_identifier_ok
example : value c!"a" = .ok (.identifier c!"a") c!"" := by rfl

-- value_constants_ok_u32, value_constants_err, value_constants_none: `Value::constants` is `Constant::value`
-- on a literal (tested above) and `None` on a name; the model matches on the value directly.

-- value_is_true_true
example : Value.is_true (.identifier c!"TRUE") = true := by rfl

-- value_is_true_false
example : Value.is_true (.identifier c!"a") = false := by rfl

-- value_is_false_true
example : Value.is_false (.identifier c!"FALSE") = true := by rfl

-- value_is_false_false
example : Value.is_false (.identifier c!"a") = false := by rfl

-- program_ok
example : program ts c!"program prog { version v1 { int proc(void) = a; } = b; } = c;" = .ok (⟨c!"prog", [⟨c!"v1", [⟨.int true, c!"proc", .void, .identifier c!"a"⟩], .identifier c!"b"⟩], .identifier c!"c"⟩) c!"" := by rfl

-- version_ok
example : version ts c!"version v1 { int proc(void) = a; } = b;" = .ok (⟨c!"v1", [⟨.int true, c!"proc", .void, .identifier c!"a"⟩], .identifier c!"b"⟩) c!"" := by rfl

-- procesure_ok
example : procedure ts c!"int proc(void) = a;" = .ok (⟨.int true, c!"proc", .void, .identifier c!"a"⟩) c!"" := by rfl

/-! ## gen_code.rs

The tests build contexts by hand; so do these. `resolve_const_value` and `resolve_enum_value` are the two
halves of `resolve_name` in the model. -/

/-- The context of the tests, `gen_code.rs` 1029-1044 and 1050-1065; the first four tests use one half of
it. -/
def cxt (consts enums : Bool) : Context where
  config := {}
  constants := if consts then [(c!"a", .constant (.decimal c!"10"))] else []
  typedefs := if enums then
    [(c!"b", .enum c!"b" [⟨c!"c", .constant (.decimal c!"11")⟩])] else []

-- context_resolve_constant_value_ok
example : (cxt true false).resolve_name .u32 3 c!"a" = .ok 10 := by rfl

-- context_resolve_constant_value_err
example : (cxt true false).resolve_name .u32 3 c!"n" = .err (.notFound c!"n") := by rfl

-- context_resolve_enum_value_ok
example : (cxt false true).resolve_name .u32 3 c!"c" = .ok 11 := by rfl

-- context_resolve_enum_value_err
example : (cxt false true).resolve_name .u32 3 c!"n" = .err (.notFound c!"n") := by rfl

-- context_resolve_name_ok1
example : (cxt true true).resolve_name .u32 3 c!"a" = .ok 10 := by rfl

-- context_resolve_name_ok2
example : (cxt true true).resolve_name .u32 3 c!"c" = .ok 11 := by rfl

-- upper_camel_case_to_upper_camel_case
example : upper_camel_case c!"AbCd" = c!"AbCd" := by rfl

-- lower_camel_case_to_upper_camel_case
example : upper_camel_case c!"abCd" = c!"AbCd" := by rfl

-- snake_case_to_upper_camel_case
example : upper_camel_case c!"ab_cd" = c!"AbCd" := by rfl

-- upper_snake_case_to_upper_camel_case
example : upper_camel_case c!"AB_CD" = c!"AbCd" := by rfl

-- upper_camel_case_to_snake_case
example : snake_case c!"AbCd" = c!"ab_cd" := by rfl

-- lower_camel_case_to_snake_case
example : snake_case c!"abCd" = c!"ab_cd" := by rfl

-- snake_case_to_snake_case
example : snake_case c!"ab_cd" = c!"ab_cd" := by rfl

-- upper_camel_case_to_snake_case_with_num
example : snake_case c!"Ab2Cd" = c!"ab2_cd" := by rfl

end Xdr.Rpcgen.Tests
