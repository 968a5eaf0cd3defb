import Verif.Model.Pipeline

/-!
# The model against the test fixtures of the library

For every pair `/repo/tests/fixtures/*.h`, `*.rs` the model is run on the definitions of the header
(as /repo/tests/headers.rs:150-164 collects them; trailing comments are not part of a definition)
and gives the tokens of the expected Rust file: the same tokens, up to a repeated `;` and the comma
before a closing bracket, which the printer used by that test does not keep.  Floating point
literals are compared as symbolic values.
-/

namespace CMacro
open Spec (Op)

/-- /repo/tests/headers.rs:97-112, the context of the test, without functions. -/
def fixtureCtx0 : Ctx :=
  { Ctx.unit asciiEnv with resolveTy := fun s => if s = c!"size_t" then none else some (.path .plain ⟨false, [s]⟩) }

/-- The parameter types of a function (/repo/tests/headers.rs:117-123). -/
def fixtureTys : List Str → Option (List RTy)
  | [] => some []
  | s :: ss => match (Ty.fromStr asciiEnv s).bind (Ty.toRust fixtureCtx0), fixtureTys ss with
    | some t, some ts => some (t :: ts)
    | _, _ => none

/-- /repo/tests/headers.rs:114-126, `TestContext::function`. -/
def fixtureFunction (fs : List (Str × List Str × Str)) (n : Str) : Option (List RTy × RTy) :=
  match fs.find? (fun f => f.1 = n) with
  | none => none
  | some (_, as, r) =>
    match fixtureTys as, fixtureTys [r] with
    | some as, some [r] => some (as, r)
    | _, _ => none

/-- The context of a fixture. -/
def fixtureCtx (fs : List (Str × List Str × Str)) : Ctx := { fixtureCtx0 with function := fixtureFunction fs }

/-- /repo/tests/headers.rs:168-197, what one name contributes; errors contribute nothing. -/
def fixtureItem (C : Ctx) (h : List Op) (n : Str) : List RTok :=
  (match pipeFn 60 C h n with
   | .gen (.ok g) => g.toks
   | _ => []) ++
  (match pipeVar 60 C h n with
   | .gen (.ok (v, t)) => q!"pub const" ++ [.id n] ++ q!":" ++ t.getD q!"_" ++ q!"=" ++ v ++ q!";"
   | _ => [])

/-- The name a call defines. -/
def opName : Op → Str
  | .defineVar n _ | .defineFn n _ _ | .undefineVar n | .undefineFn n => n

/-- The generated file, given the functions and the macro definitions of a header. -/
def fixture (fs : List (Str × List Str × Str)) (h : List Op) : List RTok :=
  (h.map opName).flatMap (fixtureItem (fixtureCtx fs) h)

/-- /repo/tests/fixtures/arg_call.h and arg_call.rs -/
example : fixture []
    [.defineFn c!"F" [] [c!"777"],
     .defineFn c!"ARG_CALL" [c!"F"] [c!"F", c!"(", c!")"]] =
    q!"# [ doc ( hidden ) ] # [ macro_export ] macro_rules ! __cmacro__F { ( ) => {"
    ++ [.int (777) []]
    ++ q!"} ; } pub use __cmacro__F as F ; # [ doc ( hidden ) ] # [ macro_export ] macro_rules !"
    ++ q!"__cmacro__ARG_CALL { ( $ F : expr ) => { $ F ( ) } ; } pub use __cmacro__ARG_CALL as ARG_CALL ;" := by decide +kernel

/-- /repo/tests/fixtures/array_access.h and array_access.rs -/
example : fixture []
    [.defineFn c!"_REENT_INIT_PTR_ZEROED" [c!"var"] [c!"{", c!"(", c!"var", c!")", c!"->", c!"_stdin", c!"=", c!"&", c!"__sf", c!"[", c!"0", c!"]", c!";",
       c!"(", c!"var", c!")", c!"->", c!"_stdout", c!"=", c!"&", c!"__sf", c!"[", c!"1", c!"]", c!";", c!"(",
       c!"var", c!")", c!"->", c!"_stderr", c!"=", c!"&", c!"__sf", c!"[", c!"2", c!"]", c!";", c!"}"],
     .defineFn c!"ARRAY_ACCESS" [c!"a"] [c!"a", c!"[", c!"0", c!"]"],
     .defineFn c!"ARRAY_FIELD_ACCESS" [c!"a"] [c!"a", c!"[", c!"0", c!"]", c!".", c!"field"],
     .defineFn c!"FIELD_ARRAY_ACCESS" [c!"a"] [c!"a", c!".", c!"field", c!"[", c!"0", c!"]"],
     .defineFn c!"NESTED_ARRAY_ACCESS" [c!"a"] [c!"a", c!"[", c!"1", c!"]", c!"[", c!"2", c!"]"],
     .defineFn c!"NESTED_ARRAY_ACCESS_CONVOLUTED" [c!"a"] [c!"(", c!"*", c!"(", c!"&", c!"a", c!"[", c!"1", c!"]", c!")", c!")", c!"[", c!"2", c!"]"]] =
    q!"# [ doc ( hidden ) ] # [ macro_export ] macro_rules ! __cmacro___REENT_INIT_PTR_ZEROED { ( $ var"
    ++ q!": expr ) => { { { ( * $ var ) . _stdin = ptr :: addr_of_mut ! ( * __sf . add ("
    ++ [.int (0) []]
    ++ q!") ) ; ( * $ var ) . _stdin } ; { ( * $ var ) . _stdout = ptr :: addr_of_mut ! ( * __sf . add ("
    ++ [.int (1) []]
    ++ q!") ) ; ( * $ var ) . _stdout } ; { ( * $ var ) . _stderr = ptr :: addr_of_mut ! ( * __sf . add ("
    ++ [.int (2) []]
    ++ q!") ) ; ( * $ var ) . _stderr } ; } } ; } pub use __cmacro___REENT_INIT_PTR_ZEROED as"
    ++ q!"_REENT_INIT_PTR_ZEROED ; # [ doc ( hidden ) ] # [ macro_export ] macro_rules !"
    ++ q!"__cmacro__ARRAY_ACCESS { ( $ a : expr ) => { * $ a . add ("
    ++ [.int (0) []]
    ++ q!") } ; } pub use __cmacro__ARRAY_ACCESS as ARRAY_ACCESS ; # [ doc ( hidden ) ] # [ macro_export ]"
    ++ q!"macro_rules ! __cmacro__ARRAY_FIELD_ACCESS { ( $ a : expr ) => { ( * $ a . add ("
    ++ [.int (0) []]
    ++ q!") ) . field } ; } pub use __cmacro__ARRAY_FIELD_ACCESS as ARRAY_FIELD_ACCESS ; # [ doc ( hidden"
    ++ q!") ] # [ macro_export ] macro_rules ! __cmacro__FIELD_ARRAY_ACCESS { ( $ a : expr ) => { * $ a ."
    ++ q!"field . add ("
    ++ [.int (0) []]
    ++ q!") } ; } pub use __cmacro__FIELD_ARRAY_ACCESS as FIELD_ARRAY_ACCESS ; # [ doc ( hidden ) ] # ["
    ++ q!"macro_export ] macro_rules ! __cmacro__NESTED_ARRAY_ACCESS { ( $ a : expr ) => { * ( * $ a . add"
    ++ q!"("
    ++ [.int (1) []]
    ++ q!") ) . add ("
    ++ [.int (2) []]
    ++ q!") } ; } pub use __cmacro__NESTED_ARRAY_ACCESS as NESTED_ARRAY_ACCESS ; # [ doc ( hidden ) ] # ["
    ++ q!"macro_export ] macro_rules ! __cmacro__NESTED_ARRAY_ACCESS_CONVOLUTED { ( $ a : expr ) => { * ("
    ++ q!"* ptr :: addr_of_mut ! ( * $ a . add ("
    ++ [.int (1) []]
    ++ q!") ) ) . add ("
    ++ [.int (2) []]
    ++ q!") } ; } pub use __cmacro__NESTED_ARRAY_ACCESS_CONVOLUTED as NESTED_ARRAY_ACCESS_CONVOLUTED ;" := by decide +kernel

/-- /repo/tests/fixtures/asm.h and asm.rs -/
example : fixture []
    [.defineFn c!"secureportREAD_PSP" [c!"pucOutCurrentStackPointer"] [c!"__asm", c!"volatile", c!"(", c!"\"mrs %0, psp\"", c!":", c!"\"=r\"", c!"(",
       c!"pucOutCurrentStackPointer", c!")", c!")"],
     .defineFn c!"secureportSET_PSP" [c!"pucCurrentStackPointer"] [c!"__asm", c!"volatile", c!"(", c!"\"msr psp, %0\"", c!":", c!":", c!"\"r\"", c!"(",
       c!"pucCurrentStackPointer", c!")", c!")"],
     .defineFn c!"i386_example1" [c!"old", c!"base", c!"offset"] [c!"__asm__", c!"(", c!"\"btsl %2,%1\\n\\t\"", c!"\"sbb %0,%0\"", c!":", c!"\"=r\"", c!"(", c!"old",
       c!")", c!",", c!"\"+rm\"", c!"(", c!"*", c!"base", c!")", c!":", c!"\"Ir\"", c!"(", c!"offset", c!")",
       c!":", c!"\"cc\"", c!")", c!";"],
     .defineFn c!"i386_example2" [c!"src", c!"dst"] [c!"asm", c!"(", c!"\"mov %1, %0\\n\\t\"", c!"\"add $1, %0\"", c!":", c!"\"=r\"", c!"(", c!"dst", c!")",
       c!":", c!"\"r\"", c!"(", c!"src", c!")", c!")", c!";"],
     .defineFn c!"vax_example" [c!"from", c!"to", c!"count"] [c!"asm", c!"volatile", c!"(", c!"\"movc3 %0, %1, %2\"", c!":", c!"/* No outputs. */", c!":", c!"\"g\"",
       c!"(", c!"from", c!")", c!",", c!"\"g\"", c!"(", c!"to", c!")", c!",", c!"\"g\"", c!"(", c!"count",
       c!")", c!":", c!"\"r0\"", c!",", c!"\"r1\"", c!",", c!"\"r2\"", c!",", c!"\"r3\"", c!",", c!"\"r4\"",
       c!",", c!"\"r5\"", c!",", c!"\"memory\"", c!")", c!";"],
     .defineFn c!"func" [] [c!"__asm__", c!"(", c!"\".globl func\\n\\t\"", c!"\".type func, @function\\n\\t\"", c!"\"func:\\n\\t\"",
       c!"\".cfi_startproc\\n\\t\"", c!"\"movl $7, %eax\\n\\t\"", c!"\"ret\\n\\t\"", c!"\".cfi_endproc\"",
       c!")", c!";"],
     .defineFn c!"times5" [c!"n"] [c!"__asm__", c!"(", c!"\"leal (%0,%0,4),%0\"", c!":", c!"\"=r\"", c!"(", c!"n", c!")", c!":", c!"\"0\"",
       c!"(", c!"n", c!")", c!")", c!";"]] =
    q!"# [ doc ( hidden ) ] # [ macro_export ] macro_rules ! __cmacro__secureportREAD_PSP { ( $"
    ++ q!"pucOutCurrentStackPointer : expr ) => { arch :: asm ! ("
    ++ [.str c!"mrs {0}, psp"]
    ++ q!", out ( reg ) $ pucOutCurrentStackPointer , options ( nomem , preserves_flags ) , ) ; } ; } pub"
    ++ q!"use __cmacro__secureportREAD_PSP as secureportREAD_PSP ; # [ doc ( hidden ) ] # [ macro_export ]"
    ++ q!"macro_rules ! __cmacro__secureportSET_PSP { ( $ pucCurrentStackPointer : expr ) => { arch :: asm"
    ++ q!"! ("
    ++ [.str c!"msr psp, {0}"]
    ++ q!", in ( reg ) $ pucCurrentStackPointer , options ( nomem , preserves_flags ) , ) ; } ; } pub use"
    ++ q!"__cmacro__secureportSET_PSP as secureportSET_PSP ; # [ doc ( hidden ) ] # [ macro_export ]"
    ++ q!"macro_rules ! __cmacro__i386_example1 { ( $ old : expr , $ base : expr , $ offset : expr ) => {"
    ++ q!"arch :: asm ! ("
    ++ [.str c!"btsl {2},{1}"]
    ++ q!","
    ++ [.str c!"sbb {0},{0}"]
    ++ q!", out ( reg ) $ old , inout ( reg ) * $ base , in ( reg ) $ offset , options ( nomem ) , ) ; } ;"
    ++ q!"} pub use __cmacro__i386_example1 as i386_example1 ; # [ doc ( hidden ) ] # [ macro_export ]"
    ++ q!"macro_rules ! __cmacro__i386_example2 { ( $ src : expr , $ dst : expr ) => { arch :: asm ! ("
    ++ [.str c!"mov {1}, {0}"]
    ++ q!","
    ++ [.str c!"add $1, {0}"]
    ++ q!", out ( reg ) $ dst , in ( reg ) $ src , options ( att_syntax , nomem , preserves_flags ) , ) ;"
    ++ q!"} ; } pub use __cmacro__i386_example2 as i386_example2 ; # [ doc ( hidden ) ] # [ macro_export ]"
    ++ q!"macro_rules ! __cmacro__vax_example { ( $ from : expr , $ to : expr , $ count : expr ) => { arch"
    ++ q!":: asm ! ("
    ++ [.str c!"movc3 {0}, {1}, {2}"]
    ++ q!", in ( reg ) $ from , in ( reg ) $ to , in ( reg ) $ count , out ("
    ++ [.str c!"r0"]
    ++ q!") _ , out ("
    ++ [.str c!"r1"]
    ++ q!") _ , out ("
    ++ [.str c!"r2"]
    ++ q!") _ , out ("
    ++ [.str c!"r3"]
    ++ q!") _ , out ("
    ++ [.str c!"r4"]
    ++ q!") _ , out ("
    ++ [.str c!"r5"]
    ++ q!") _ , clobber_abi ("
    ++ [.str c!"C"]
    ++ q!") , options ( preserves_flags ) , ) ; } ; } pub use __cmacro__vax_example as vax_example ; # ["
    ++ q!"doc ( hidden ) ] # [ macro_export ] macro_rules ! __cmacro__func { ( ) => { arch :: global_asm !"
    ++ q!"("
    ++ [.str c!".globl func"]
    ++ q!","
    ++ [.str c!".type func, @function"]
    ++ q!","
    ++ [.str c!"func:"]
    ++ q!","
    ++ [.str c!".cfi_startproc"]
    ++ q!","
    ++ [.str c!"movl $7, %eax"]
    ++ q!","
    ++ [.str c!"ret"]
    ++ q!","
    ++ [.str c!".cfi_endproc"]
    ++ q!", options ( att_syntax ) , ) ; } ; } pub use __cmacro__func as func ; # [ doc ( hidden ) ] # ["
    ++ q!"macro_export ] macro_rules ! __cmacro__times5 { ( $ n : expr ) => { arch :: asm ! ("
    ++ [.str c!"leal ({0},{0},4),{0}"]
    ++ q!", inout ( reg ) $ n , options ( att_syntax , nomem , preserves_flags ) , ) ; } ; } pub use"
    ++ q!"__cmacro__times5 as times5 ;" := by decide +kernel

/-- /repo/tests/fixtures/assign_pointer.h and assign_pointer.rs -/
example : fixture []
    [.defineFn c!"portYIELD" [] [c!"{", c!"/* Set a PendSV to request a context switch. */", c!"portNVIC_INT_CTRL_REG", c!"=",
       c!"portNVIC_PENDSVSET_BIT", c!";", c!"__asm", c!"(", c!"\"\tdsb\"", c!")", c!";", c!"__asm", c!"(",
       c!"\"\tisb\"", c!")", c!";", c!"}"],
     .defineVar c!"portNVIC_INT_CTRL_REG" [c!"(", c!"*", c!"(", c!"(", c!"volatile", c!"uint32_t", c!"*", c!")", c!"0xe000ed04", c!")", c!")"],
     .defineVar c!"portNVIC_PENDSVSET_BIT" [c!"(", c!"1UL", c!"<<", c!"28UL", c!")"],
     .defineFn c!"portEND_SWITCHING_ISR" [c!"xSwitchRequired"] [c!"do", c!"{", c!"if", c!"(", c!"xSwitchRequired", c!"!=", c!"pdFALSE", c!")", c!"portYIELD", c!"(",
       c!")", c!";", c!"}", c!"while", c!"(", c!"0", c!")"],
     .defineFn c!"portYIELD_FROM_ISR" [c!"x"] [c!"portEND_SWITCHING_ISR", c!"(", c!"x", c!")"]] =
    q!"# [ allow ( non_snake_case , unused_mut , unsafe_code ) ] # [ inline ( always ) ] pub unsafe extern"
    ++ [.str c!"C"]
    ++ q!"fn portYIELD ( ) { { { let value ="
    ++ [.int (268435456) []]
    ++ q!"; ptr :: write_volatile ("
    ++ [.int (3758157060) c!"u32"]
    ++ q!"as * mut uint32_t , value ) ; value } ; arch :: asm ! ("
    ++ [.str c!"dsb"]
    ++ q!", options ( nomem , preserves_flags ) , ) ; arch :: asm ! ("
    ++ [.str c!"isb"]
    ++ q!", options ( nomem , preserves_flags ) , ) ; } ; } pub const portNVIC_PENDSVSET_BIT : _ ="
    ++ [.int (268435456) []]
    ++ q!"; # [ doc ( hidden ) ] # [ macro_export ] macro_rules ! __cmacro__portEND_SWITCHING_ISR { ( $"
    ++ q!"xSwitchRequired : expr ) => { loop { if $ xSwitchRequired != pdFALSE { { let value ="
    ++ [.int (268435456) []]
    ++ q!"; ptr :: write_volatile ("
    ++ [.int (3758157060) c!"u32"]
    ++ q!"as * mut uint32_t , value ) ; value } ; arch :: asm ! ("
    ++ [.str c!"dsb"]
    ++ q!", options ( nomem , preserves_flags ) , ) ; arch :: asm ! ("
    ++ [.str c!"isb"]
    ++ q!", options ( nomem , preserves_flags ) , ) ; } if"
    ++ [.int (0) []]
    ++ q!"!="
    ++ [.int (0) []]
    ++ q!"{ continue } break } } ; } pub use __cmacro__portEND_SWITCHING_ISR as portEND_SWITCHING_ISR ; #"
    ++ q!"[ doc ( hidden ) ] # [ macro_export ] macro_rules ! __cmacro__portYIELD_FROM_ISR { ( $ x : expr"
    ++ q!") => { loop { if $ x != pdFALSE { { let value ="
    ++ [.int (268435456) []]
    ++ q!"; ptr :: write_volatile ("
    ++ [.int (3758157060) c!"u32"]
    ++ q!"as * mut uint32_t , value ) ; value } ; arch :: asm ! ("
    ++ [.str c!"dsb"]
    ++ q!", options ( nomem , preserves_flags ) , ) ; arch :: asm ! ("
    ++ [.str c!"isb"]
    ++ q!", options ( nomem , preserves_flags ) , ) ; } if"
    ++ [.int (0) []]
    ++ q!"!="
    ++ [.int (0) []]
    ++ q!"{ continue } break } } ; } pub use __cmacro__portYIELD_FROM_ISR as portYIELD_FROM_ISR ;" := by decide +kernel

/-- /repo/tests/fixtures/cast_big_to_small.h and cast_big_to_small.rs -/
example : fixture []
    [.defineVar c!"BIG_TO_SMALL" [c!"(", c!"unsigned", c!"short", c!")", c!"4294967295"]] =
    q!"pub const BIG_TO_SMALL : c_ushort ="
    ++ [.int (4294967295) c!"u32"]
    ++ q!"as c_ushort ;" := by decide +kernel

/-- /repo/tests/fixtures/cast_multiplication.h and cast_multiplication.rs -/
example : fixture []
    [.defineFn c!"pdMS_TO_TICKS_NO_PAR" [c!"xTimeInMs"] [c!"(", c!"(", c!"TickType_t", c!")", c!"xTimeInMs", c!"*", c!"(", c!"TickType_t", c!")",
       c!"configTICK_RATE_HZ", c!")", c!"/", c!"(", c!"TickType_t", c!")", c!"1000U"],
     .defineFn c!"pdMS_TO_TICKS" [c!"xTimeInMs"] [c!"(", c!"(", c!"TickType_t", c!")", c!"(", c!"xTimeInMs", c!")", c!"*", c!"(", c!"TickType_t", c!")",
       c!"configTICK_RATE_HZ", c!")", c!"/", c!"(", c!"TickType_t", c!")", c!"1000U"]] =
    q!"# [ doc ( hidden ) ] # [ macro_export ] macro_rules ! __cmacro__pdMS_TO_TICKS_NO_PAR { ( $"
    ++ q!"xTimeInMs : expr ) => { $ xTimeInMs as TickType_t * configTICK_RATE_HZ as TickType_t /"
    ++ [.int (1000) c!"u16"]
    ++ q!"as TickType_t } ; } pub use __cmacro__pdMS_TO_TICKS_NO_PAR as pdMS_TO_TICKS_NO_PAR ; # [ doc ("
    ++ q!"hidden ) ] # [ macro_export ] macro_rules ! __cmacro__pdMS_TO_TICKS { ( $ xTimeInMs : expr ) =>"
    ++ q!"{ $ xTimeInMs as TickType_t * configTICK_RATE_HZ as TickType_t /"
    ++ [.int (1000) c!"u16"]
    ++ q!"as TickType_t } ; } pub use __cmacro__pdMS_TO_TICKS as pdMS_TO_TICKS ;" := by decide +kernel

/-- /repo/tests/fixtures/cast_neg_to_pos.h and cast_neg_to_pos.rs -/
example : fixture []
    [.defineVar c!"NEG_TO_POS" [c!"(", c!"unsigned", c!"int", c!")", c!"-", c!"1"]] =
    q!"pub const NEG_TO_POS : c_uint ="
    ++ [.int (-1) c!"i8"]
    ++ q!"as c_uint ;" := by decide +kernel

/-- /repo/tests/fixtures/cast_shift.h and cast_shift.rs -/
example : fixture []
    [.defineVar c!"CAST_SHIFT" [c!"(", c!"int", c!")", c!"2", c!"<<", c!"3"]] =
    q!"pub const CAST_SHIFT : c_int = ("
    ++ [.int (2) c!"u8"]
    ++ q!"as c_int ) <<"
    ++ [.int (3) []]
    ++ q!";" := by decide +kernel

/-- /repo/tests/fixtures/chars.h and chars.rs -/
example : fixture []
    [.defineVar c!"MY_FF" [c!"'\\xff'"],
     .defineVar c!"MY_A1" [c!"u8'\\x61'"],
     .defineVar c!"MY_A2" [c!"u8'a'"],
     .defineVar c!"MY_CAT1" [c!"u'\\u732b'"],
     .defineVar c!"MY_CAT2" [c!"u'猫'"],
     .defineVar c!"MY_DONUT1" [c!"U'\\U0001f369'"],
     .defineVar c!"MY_DONUT2" [c!"U'🍩'"]] =
    q!"pub const MY_FF : c_char ="
    ++ [.char (Char.ofNat 255)]
    ++ q!"as c_char ; pub const MY_A1 : u8 ="
    ++ [.char (Char.ofNat 97)]
    ++ q!"as u8 ; pub const MY_A2 : u8 ="
    ++ [.char (Char.ofNat 97)]
    ++ q!"as u8 ; pub const MY_CAT1 : u16 ="
    ++ [.char (Char.ofNat 29483)]
    ++ q!"as u16 ; pub const MY_CAT2 : u16 ="
    ++ [.char (Char.ofNat 29483)]
    ++ q!"as u16 ; pub const MY_DONUT1 : u32 ="
    ++ [.char (Char.ofNat 127849)]
    ++ q!"as u32 ; pub const MY_DONUT2 : u32 ="
    ++ [.char (Char.ofNat 127849)]
    ++ q!"as u32 ;" := by decide +kernel

/-- /repo/tests/fixtures/comments.h and comments.rs -/
example : fixture []
    [.defineFn c!"INLINE_COMMENTS" [c!"a", c!"b", c!"c"] [c!"a", c!"/* pre % */", c!"%", c!"/* post % */", c!"(", c!"b", c!"/* pre / */", c!"/", c!"/*post / */",
       c!"c", c!")"]] =
    q!"# [ doc ( hidden ) ] # [ macro_export ] macro_rules ! __cmacro__INLINE_COMMENTS { ( $ a : expr ,"
    ++ q!"$ b : expr , $ c : expr ) => { $ a % ( $ b / $ c ) } ; } pub use __cmacro__INLINE_COMMENTS as"
    ++ q!"INLINE_COMMENTS ;" := by decide +kernel

/-- /repo/tests/fixtures/concat.h and concat.rs -/
example : fixture []
    [.defineFn c!"__CONCAT" [c!"a", c!"b", c!"c"] [c!"a", c!"b", c!"##", c!"c"],
     .defineFn c!"CONCAT__" [c!"a", c!"b", c!"c"] [c!"a", c!"##", c!"b", c!"c"]] =
    q!"# [ doc ( hidden ) ] # [ macro_export ] macro_rules ! __cmacro____CONCAT { ( $ a : expr , $ b :"
    ++ q!"ident , $ c : ident ) => { { const BYTES : & [ u8 ] = concat ! ( $ a , concat_idents ! ( $ b , $"
    ++ q!"c ) ,"
    ++ [.char (Char.ofNat 0)]
    ++ q!") . as_bytes ( ) ; BYTES . as_ptr ( ) as * const c_char } } ; } pub use __cmacro____CONCAT as"
    ++ q!"__CONCAT ; # [ doc ( hidden ) ] # [ macro_export ] macro_rules ! __cmacro__CONCAT__ { ( $ a :"
    ++ q!"ident , $ b : ident , $ c : expr ) => { { const BYTES : & [ u8 ] = concat ! ( concat_idents ! ("
    ++ q!"$ a , $ b ) , $ c ,"
    ++ [.char (Char.ofNat 0)]
    ++ q!") . as_bytes ( ) ; BYTES . as_ptr ( ) as * const c_char } } ; } pub use __cmacro__CONCAT__ as"
    ++ q!"CONCAT__ ;" := by decide +kernel

/-- /repo/tests/fixtures/concat_int_suffix.h and concat_int_suffix.rs -/
example : fixture []
    [.defineVar c!"MY_UL" [c!"1", c!"##", c!"UL"],
     .defineVar c!"MY_ULL" [c!"1", c!"##", c!"ULL"],
     .defineVar c!"MY_U_L" [c!"1", c!"##", c!"U", c!"##", c!"L"],
     .defineFn c!"UL" [c!"X"] [c!"X", c!"##", c!"UL"],
     .defineVar c!"ONE" [c!"UL", c!"(", c!"1", c!")"]] =
    q!"pub const MY_UL : _ ="
    ++ [.int (1) []]
    ++ q!"; pub const MY_ULL : _ ="
    ++ [.int (1) []]
    ++ q!"; pub const MY_U_L : _ ="
    ++ [.int (1) []]
    ++ q!"; # [ doc ( hidden ) ] # [ macro_export ] macro_rules ! __cmacro__UL { ( $ X : ident ) => {"
    ++ q!"concat_idents ! ( $ X , UL ) } ; } pub use __cmacro__UL as UL ; pub const ONE : _ ="
    ++ [.int (1) []]
    ++ q!";" := by decide +kernel

/-- /repo/tests/fixtures/concat_nested.h and concat_nested.rs -/
example : fixture []
    [.defineFn c!"__int_c_join" [c!"a", c!"b"] [c!"a", c!"##", c!"b"],
     .defineFn c!"__int_c" [c!"v", c!"suffix"] [c!"__int_c_join", c!"(", c!"v", c!",", c!"suffix", c!")"],
     .defineFn c!"__uint_c" [c!"v", c!"suffix"] [c!"__int_c_join", c!"(", c!"v", c!"##", c!"U", c!",", c!"suffix", c!")"],
     .defineFn c!"UINT64_C" [c!"v"] [c!"__uint_c", c!"(", c!"v", c!",", c!"__int64_c_suffix", c!")"]] =
    q!"# [ doc ( hidden ) ] # [ macro_export ] macro_rules ! __cmacro____int_c_join { ( $ a : ident , $"
    ++ q!"b : ident ) => { concat_idents ! ( $ a , $ b ) } ; } pub use __cmacro____int_c_join as"
    ++ q!"__int_c_join ; # [ doc ( hidden ) ] # [ macro_export ] macro_rules ! __cmacro____int_c { ( $ v :"
    ++ q!"ident , $ suffix : ident ) => { concat_idents ! ( $ v , $ suffix ) } ; } pub use"
    ++ q!"__cmacro____int_c as __int_c ; # [ doc ( hidden ) ] # [ macro_export ] macro_rules !"
    ++ q!"__cmacro____uint_c { ( $ v : ident , $ suffix : ident ) => { concat_idents ! ( $ v , U , $"
    ++ q!"suffix ) } ; } pub use __cmacro____uint_c as __uint_c ; # [ doc ( hidden ) ] # [ macro_export ]"
    ++ q!"macro_rules ! __cmacro__UINT64_C { ( $ v : ident ) => { concat_idents ! ( $ v ,"
    ++ q!"U__int64_c_suffix ) } ; } pub use __cmacro__UINT64_C as UINT64_C ;" := by decide +kernel

/-- /repo/tests/fixtures/concat_non_ident.h and concat_non_ident.rs -/
example : fixture []
    [.defineFn c!"CONCAT_123" [c!"var"] [c!"var", c!"##", c!"123"],
     .defineFn c!"CONCAT_123DEF" [c!"var"] [c!"var", c!"##", c!"123def"],
     .defineFn c!"CONCAT_123DEF456GHI" [c!"var"] [c!"var", c!"##", c!"123def456ghi"]] =
    [] := by decide +kernel

/-- /repo/tests/fixtures/deref.h and deref.rs -/
example : fixture []
    [.defineVar c!"FLASH_SIZE_DATA_REGISTER" [c!"(", c!"(", c!"uint32_t", c!")", c!"0x1FFF75E0", c!")"],
     .defineVar c!"FLASH_SIZE1" [c!"*", c!"(", c!"(", c!"uint16_t", c!"*", c!")", c!"FLASH_SIZE_DATA_REGISTER", c!")"],
     .defineFn c!"FLASH_SIZE2" [] [c!"*", c!"(", c!"(", c!"uint16_t", c!"*", c!")", c!"FLASH_SIZE_DATA_REGISTER", c!")"]] =
    q!"pub const FLASH_SIZE_DATA_REGISTER : uint32_t ="
    ++ [.int (536835552) c!"u32"]
    ++ q!"as uint32_t ; # [ allow ( non_snake_case , unused_mut , unsafe_code ) ] # [ inline ( always ) ]"
    ++ q!"pub unsafe extern"
    ++ [.str c!"C"]
    ++ q!"fn FLASH_SIZE2 ( ) -> uint16_t { * ("
    ++ [.int (536835552) c!"u32"]
    ++ q!"as uint32_t as * mut uint16_t ) }" := by decide +kernel

/-- /repo/tests/fixtures/empty.h and empty.rs -/
example : fixture []
    [.defineVar c!"__IO" [],
     .defineVar c!"VAR" [c!"__IO", c!"3"]] =
    q!"pub const VAR : _ ="
    ++ [.int (3) []]
    ++ q!";" := by decide +kernel

/-- /repo/tests/fixtures/empty_fn_macro.h and empty_fn_macro.rs -/
example : fixture []
    [.defineFn c!"func" [] []] =
    q!"# [ allow ( non_snake_case , unused_mut , unsafe_code ) ] # [ inline ( always ) ] pub unsafe extern"
    ++ [.str c!"C"]
    ++ q!"fn func ( ) { { } ; }" := by decide +kernel

/-- /repo/tests/fixtures/field_access.h and field_access.rs -/
example : fixture []
    [.defineFn c!"access" [c!"x", c!"field"] [c!"x", c!".", c!"field"],
     .defineFn c!"access_field" [c!"x"] [c!"x", c!".", c!"field"],
     .defineFn c!"access_pointer_field" [c!"x"] [c!"x", c!"->", c!"field"],
     .defineFn c!"access_inc_pointer_field" [c!"x"] [c!"x", c!"++", c!"->", c!"field"],
     .defineVar c!"old_name" [c!"new_name"],
     .defineFn c!"access_renamed_field" [c!"x"] [c!"x", c!".", c!"old_name"],
     .defineFn c!"access_address" [c!"x"] [c!"(", c!"&", c!"x", c!")", c!"->", c!"new_name"]] =
    q!"# [ doc ( hidden ) ] # [ macro_export ] macro_rules ! __cmacro__access { ( $ x : expr , $ field"
    ++ q!": ident ) => { $ x . $ field } ; } pub use __cmacro__access as access ; # [ doc ( hidden ) ] # ["
    ++ q!"macro_export ] macro_rules ! __cmacro__access_field { ( $ x : expr ) => { $ x . field } ; } pub"
    ++ q!"use __cmacro__access_field as access_field ; # [ doc ( hidden ) ] # [ macro_export ] macro_rules"
    ++ q!"! __cmacro__access_pointer_field { ( $ x : expr ) => { ( * $ x ) . field } ; } pub use"
    ++ q!"__cmacro__access_pointer_field as access_pointer_field ; # [ doc ( hidden ) ] # [ macro_export ]"
    ++ q!"macro_rules ! __cmacro__access_inc_pointer_field { ( $ x : expr ) => { ( * { let prev = $ x ; $"
    ++ q!"x = $ x . add ("
    ++ [.int (1) []]
    ++ q!") ; prev } ) . field } ; } pub use __cmacro__access_inc_pointer_field as"
    ++ q!"access_inc_pointer_field ; # [ doc ( hidden ) ] # [ macro_export ] macro_rules !"
    ++ q!"__cmacro__access_renamed_field { ( $ x : expr ) => { $ x . new_name } ; } pub use"
    ++ q!"__cmacro__access_renamed_field as access_renamed_field ; # [ doc ( hidden ) ] # [ macro_export ]"
    ++ q!"macro_rules ! __cmacro__access_address { ( $ x : expr ) => { ( * ptr :: addr_of_mut ! ( $ x ) )"
    ++ q!". new_name } ; } pub use __cmacro__access_address as access_address ;" := by decide +kernel

/-- /repo/tests/fixtures/file_line.h and file_line.rs -/
example : fixture []
    [.defineVar c!"LINE_VAR" [c!"__LINE__"],
     .defineFn c!"LINE" [] [c!"LINE_VAR"],
     .defineVar c!"FILE_VAR" [c!"__FILE__"],
     .defineFn c!"FILE" [] [c!"FILE_VAR"],
     .defineFn c!"STRINGIFY" [c!"s"] [c!"#", c!"s"],
     .defineFn c!"STRINGIFY2" [c!"s"] [c!"STRINGIFY", c!"(", c!"s", c!")"],
     .defineFn c!"LINE_AND_FILE" [] [c!"FILE", c!"(", c!")", c!"STRINGIFY2", c!"(", c!"__LINE__", c!")"],
     .defineFn c!"STRINGIFY_FILE" [] [c!"STRINGIFY2", c!"(", c!"__FILE__", c!")"]] =
    q!"# [ doc ( hidden ) ] # [ macro_export ] macro_rules ! __cmacro__LINE { ( ) => { line ! ( ) as"
    ++ q!"c_uint } ; } pub use __cmacro__LINE as LINE ; # [ doc ( hidden ) ] # [ macro_export ]"
    ++ q!"macro_rules ! __cmacro__FILE { ( ) => { { const BYTES : & [ u8 ] = concat ! ( file ! ( ) ,"
    ++ [.char (Char.ofNat 0)]
    ++ q!") . as_bytes ( ) ; BYTES . as_ptr ( ) as * const c_char } } ; } pub use __cmacro__FILE as FILE ;"
    ++ q!"# [ doc ( hidden ) ] # [ macro_export ] macro_rules ! __cmacro__STRINGIFY { ( $ s : expr ) => {"
    ++ q!"{ const BYTES : & [ u8 ] = concat ! ( stringify ! ( $ s ) ,"
    ++ [.char (Char.ofNat 0)]
    ++ q!") . as_bytes ( ) ; BYTES . as_ptr ( ) as * const c_char } } ; } pub use __cmacro__STRINGIFY as"
    ++ q!"STRINGIFY ; # [ doc ( hidden ) ] # [ macro_export ] macro_rules ! __cmacro__STRINGIFY2 { ( $ s :"
    ++ q!"expr ) => { { const BYTES : & [ u8 ] = concat ! ( stringify ! ( $ s ) ,"
    ++ [.char (Char.ofNat 0)]
    ++ q!") . as_bytes ( ) ; BYTES . as_ptr ( ) as * const c_char } } ; } pub use __cmacro__STRINGIFY2 as"
    ++ q!"STRINGIFY2 ; # [ doc ( hidden ) ] # [ macro_export ] macro_rules ! __cmacro__LINE_AND_FILE { ( )"
    ++ q!"=> { { const BYTES : & [ u8 ] = concat ! ( file ! ( ) , stringify ! ( line ! ( ) ) ,"
    ++ [.char (Char.ofNat 0)]
    ++ q!") . as_bytes ( ) ; BYTES . as_ptr ( ) as * const c_char } } ; } pub use __cmacro__LINE_AND_FILE"
    ++ q!"as LINE_AND_FILE ; # [ doc ( hidden ) ] # [ macro_export ] macro_rules !"
    ++ q!"__cmacro__STRINGIFY_FILE { ( ) => { { const BYTES : & [ u8 ] = concat ! ( format ! ("
    ++ [.str c!"{:?}"]
    ++ q!", file ! ( ) ) ,"
    ++ [.char (Char.ofNat 0)]
    ++ q!") . as_bytes ( ) ; BYTES . as_ptr ( ) as * const c_char } } ; } pub use __cmacro__STRINGIFY_FILE"
    ++ q!"as STRINGIFY_FILE ;" := by decide +kernel

/-- /repo/tests/fixtures/float.h and float.rs -/
example : fixture []
    [.defineVar c!"float0_0" [c!"0."],
     .defineVar c!"float1_0" [c!"1.0f"],
     .defineVar c!"float_1" [c!".1"],
     .defineVar c!"float2_0" [c!"2.0"],
     .defineVar c!"float1000_0" [c!"1e3"],
     .defineVar c!"float2000_0" [c!"2e+3"],
     .defineVar c!"float_001" [c!"1e-3"],
     .defineVar c!"float80_0" [c!"10.0", c!"*", c!"(", c!"1", c!"<<", c!"3", c!")"]] =
    q!"pub const float0_0 : f64 ="
    ++ [.float (.double (.parse c!"0."))]
    ++ q!"; pub const float1_0 : f32 ="
    ++ [.float (.float (.parse c!"1.0"))]
    ++ q!"; pub const float_1 : f64 ="
    ++ [.float (.double (.parse c!".1"))]
    ++ q!"; pub const float2_0 : f64 ="
    ++ [.float (.double (.parse c!"2.0"))]
    ++ q!"; pub const float1000_0 : f64 ="
    ++ [.float (.double (.parse c!"1e3"))]
    ++ q!"; pub const float2000_0 : f64 ="
    ++ [.float (.double (.parse c!"2e+3"))]
    ++ q!"; pub const float_001 : f64 ="
    ++ [.float (.double (.parse c!"1e-3"))]
    ++ q!"; pub const float80_0 : f64 ="
    ++ [.float (.double (.mul (.parse c!"10.0") (.widen (.ofInt 8))))]
    ++ q!";" := by decide +kernel

/-- /repo/tests/fixtures/fn_alias.h and fn_alias.rs -/
example : fixture []
    [.defineFn c!"A" [] [c!"123"],
     .defineVar c!"B" [c!"A"],
     .defineFn c!"C" [] [c!"B", c!"(", c!")"]] =
    q!"# [ doc ( hidden ) ] # [ macro_export ] macro_rules ! __cmacro__A { ( ) => {"
    ++ [.int (123) []]
    ++ q!"} ; } pub use __cmacro__A as A ; # [ doc ( hidden ) ] # [ macro_export ] macro_rules !"
    ++ q!"__cmacro__C { ( ) => {"
    ++ [.int (123) []]
    ++ q!"} ; } pub use __cmacro__C as C ;" := by decide +kernel

/-- /repo/tests/fixtures/fn_same_name.h and fn_same_name.rs -/
example : fixture [(c!"func", [c!"int"], c!"void")]
    [.defineFn c!"func" [c!"x"] [c!"func", c!"(", c!"x", c!")"],
     .defineFn c!"wrapper_func" [c!"x"] [c!"func", c!"(", c!"x", c!")"]] =
    q!"# [ doc ( hidden ) ] # [ macro_export ] macro_rules ! __cmacro__func { ( $ x : expr ) => { func"
    ++ q!"( ( $ x ) . into ( ) ) } ; } pub use __cmacro__func as func ; # [ allow ( non_snake_case ,"
    ++ q!"unused_mut , unsafe_code ) ] # [ inline ( always ) ] pub unsafe extern"
    ++ [.str c!"C"]
    ++ q!"fn wrapper_func ( mut x : c_int ) { func ( x ) ; }" := by decide +kernel

/-- /repo/tests/fixtures/fn_same_name_different_arity.h and fn_same_name_different_arity.rs -/
example : fixture [(c!"func", [c!"int", c!"int"], c!"void")]
    [.defineFn c!"func" [c!"x"] [c!"func", c!"(", c!"x", c!",", c!"3", c!")"],
     .defineFn c!"wrapper_func" [c!"x"] [c!"func", c!"(", c!"x", c!",", c!"3", c!")"]] =
    q!"# [ doc ( hidden ) ] # [ macro_export ] macro_rules ! __cmacro__func { ( $ x : expr ) => { func"
    ++ q!"( ( $ x ) . into ( ) ,"
    ++ [.int (3) []]
    ++ q!") } ; } pub use __cmacro__func as func ;" := by decide +kernel

/-- /repo/tests/fixtures/int.h and int.rs -/
example : fixture []
    [.defineVar c!"int_9223372036854775808" [c!"-", c!"9223372036854775808"],
     .defineVar c!"int_5" [c!"-", c!"3", c!"-", c!"2"],
     .defineVar c!"int_3" [c!"-", c!"(", c!"-", c!"(", c!"-", c!"3", c!")", c!")"],
     .defineVar c!"int6" [c!"(", c!"(", c!"32", c!"|", c!"15", c!")", c!"^", c!"9", c!")", c!"&", c!"7"],
     .defineVar c!"int13" [c!"1", c!"|", c!"8", c!"^", c!"6", c!"&", c!"2", c!"<<", c!"1"],
     .defineVar c!"int16" [c!"(", c!"(", c!"(", c!"1", c!")", c!"<<", c!"4ULL", c!")", c!")"],
     .defineVar c!"int12" [c!"(", c!"(", c!"(", c!"32", c!"|", c!"15", c!")", c!"^", c!"9", c!")", c!"&", c!"7", c!")", c!"<<",
       c!"1"],
     .defineVar c!"int17" [c!"(", c!"(", c!"(", c!"(", c!"32", c!"|", c!"15", c!")", c!"^", c!"9", c!")", c!"&", c!"7", c!")",
       c!"<<", c!"1", c!")", c!"+", c!"5"],
     .defineVar c!"int15" [c!"(", c!"(", c!"(", c!"(", c!"(", c!"32", c!"|", c!"15", c!")", c!"^", c!"9", c!")", c!"&", c!"7",
       c!")", c!"<<", c!"1", c!")", c!"+", c!"5", c!")", c!"-", c!"2"],
     .defineVar c!"int30" [c!"(", c!"(", c!"(", c!"(", c!"(", c!"(", c!"(", c!"32", c!"|", c!"15", c!")", c!"^", c!"9", c!")",
       c!"&", c!"7", c!")", c!"<<", c!"1", c!")", c!"+", c!"5", c!")", c!"-", c!"2", c!")", c!"*", c!"4", c!")",
       c!"/", c!"2"],
     .defineVar c!"int38" [c!"(", c!"32", c!"|", c!"15", c!")", c!"^", c!"9"],
     .defineVar c!"int39" [c!"32", c!"|", c!"15", c!"^", c!"9", c!"&", c!"7", c!"<<", c!"1", c!"+", c!"5", c!"-", c!"2", c!"*",
       c!"4", c!"/", c!"2"],
     .defineVar c!"int47" [c!"32", c!"|", c!"15"],
     .defineVar c!"int60" [c!"(", c!"(", c!"(", c!"(", c!"(", c!"(", c!"32", c!"|", c!"15", c!")", c!"^", c!"9", c!")", c!"&",
       c!"7", c!")", c!"<<", c!"1", c!")", c!"+", c!"5", c!")", c!"-", c!"2", c!")", c!"*", c!"4"]] =
    q!"pub const int_9223372036854775808 : _ ="
    ++ [.int (-9223372036854775808) []]
    ++ q!"; pub const int_5 : _ ="
    ++ [.int (-5) []]
    ++ q!"; pub const int_3 : _ ="
    ++ [.int (-3) []]
    ++ q!"; pub const int6 : _ ="
    ++ [.int (6) []]
    ++ q!"; pub const int13 : _ ="
    ++ [.int (13) []]
    ++ q!"; pub const int16 : _ ="
    ++ [.int (16) []]
    ++ q!"; pub const int12 : _ ="
    ++ [.int (12) []]
    ++ q!"; pub const int17 : _ ="
    ++ [.int (17) []]
    ++ q!"; pub const int15 : _ ="
    ++ [.int (15) []]
    ++ q!"; pub const int30 : _ ="
    ++ [.int (30) []]
    ++ q!"; pub const int38 : _ ="
    ++ [.int (38) []]
    ++ q!"; pub const int39 : _ ="
    ++ [.int (39) []]
    ++ q!"; pub const int47 : _ ="
    ++ [.int (47) []]
    ++ q!"; pub const int60 : _ ="
    ++ [.int (60) []]
    ++ q!";" := by decide +kernel

/-- /repo/tests/fixtures/limits.h and limits.rs -/
example : fixture []
    [.defineVar c!"UCHAR_MAX" [c!"__SCHAR_MAX__", c!"*", c!"2", c!"+", c!"1"],
     .defineVar c!"UINT_MAX" [c!"__INT_MAX__", c!"*", c!"2", c!"+", c!"1"],
     .defineVar c!"ULONG_MAX" [c!"__LONG_MAX__", c!"*", c!"2", c!"+", c!"1"],
     .defineVar c!"ULONGLONG_MAX" [c!"__LONG_LONG_MAX__", c!"*", c!"2", c!"+", c!"1"]] =
    q!"pub const UCHAR_MAX : c_uchar = c_schar :: MAX as c_uchar *"
    ++ [.int (2) []]
    ++ q!"+"
    ++ [.int (1) []]
    ++ q!"; pub const UINT_MAX : c_uint = c_int :: MAX as c_uint *"
    ++ [.int (2) []]
    ++ q!"+"
    ++ [.int (1) []]
    ++ q!"; pub const ULONG_MAX : c_ulong = c_long :: MAX as c_ulong *"
    ++ [.int (2) []]
    ++ q!"+"
    ++ [.int (1) []]
    ++ q!"; pub const ULONGLONG_MAX : c_ulonglong = c_longlong :: MAX as c_ulonglong *"
    ++ [.int (2) []]
    ++ q!"+"
    ++ [.int (1) []]
    ++ q!";" := by decide +kernel

/-- /repo/tests/fixtures/literal_ptr.h and literal_ptr.rs -/
example : fixture []
    [.defineVar c!"__IO" [],
     .defineVar c!"PERIPH_BASE" [c!"(", c!"(", c!"uint32_t", c!")", c!"0x40000000U", c!")"],
     .defineVar c!"APB2PERIPH_BASE" [c!"(", c!"PERIPH_BASE", c!"+", c!"0x00010000U", c!")"],
     .defineVar c!"SYSCFG_BASE" [c!"(", c!"APB2PERIPH_BASE", c!"+", c!"0x0000U", c!")"],
     .defineVar c!"SYSCFG" [c!"(", c!"(", c!"SYSCFG_TypeDef", c!"*", c!")", c!"SYSCFG_BASE", c!")"]] =
    q!"pub const PERIPH_BASE : uint32_t ="
    ++ [.int (1073741824) c!"u32"]
    ++ q!"as uint32_t ; pub const APB2PERIPH_BASE : uint32_t ="
    ++ [.int (1073741824) c!"u32"]
    ++ q!"as uint32_t +"
    ++ [.int (65536) []]
    ++ q!"; pub const SYSCFG_BASE : uint32_t ="
    ++ [.int (1073741824) c!"u32"]
    ++ q!"as uint32_t +"
    ++ [.int (65536) []]
    ++ q!"+"
    ++ [.int (0) []]
    ++ q!"; pub const SYSCFG : * mut SYSCFG_TypeDef = ("
    ++ [.int (1073741824) c!"u32"]
    ++ q!"as uint32_t +"
    ++ [.int (65536) []]
    ++ q!"+"
    ++ [.int (0) []]
    ++ q!") as * mut SYSCFG_TypeDef ;" := by decide +kernel

/-- /repo/tests/fixtures/multiline.h and multiline.rs -/
example : fixture []
    [.defineFn c!"MULTILINE" [c!"a", c!"b", c!"c"] [c!"a", c!"%", c!"b", c!"/", c!"c"],
     .defineVar c!"MULTILINE_OP" [c!"a", c!"+", c!"3"],
     .defineFn c!"MULTILINE_BRACES" [c!"a"] [c!"{", c!"a", c!";", c!"}"],
     .defineFn c!"MULTILINE_BRACES_NO_INDENT" [c!"a"] [c!"{", c!"a", c!";", c!"}"]] =
    q!"# [ doc ( hidden ) ] # [ macro_export ] macro_rules ! __cmacro__MULTILINE { ( $ a : expr , $ b :"
    ++ q!"expr , $ c : expr ) => { $ a % $ b / $ c } ; } pub use __cmacro__MULTILINE as MULTILINE ; # ["
    ++ q!"doc ( hidden ) ] # [ macro_export ] macro_rules ! __cmacro__MULTILINE_BRACES { ( $ a : expr ) =>"
    ++ q!"{ { $ a ; } } ; } pub use __cmacro__MULTILINE_BRACES as MULTILINE_BRACES ; # [ doc ( hidden ) ]"
    ++ q!"# [ macro_export ] macro_rules ! __cmacro__MULTILINE_BRACES_NO_INDENT { ( $ a : expr ) => { { $"
    ++ q!"a ; } } ; } pub use __cmacro__MULTILINE_BRACES_NO_INDENT as MULTILINE_BRACES_NO_INDENT ;" := by decide +kernel

/-- /repo/tests/fixtures/nested_fn_macros.h and nested_fn_macros.rs -/
example : fixture []
    [.defineFn c!"f1" [c!"x"] [c!"x", c!"*", c!"2"],
     .defineFn c!"f2" [c!"y"] [c!"y", c!"*", c!"f1", c!"(", c!"y", c!")"],
     .defineVar c!"y" [c!"x"],
     .defineFn c!"f3" [c!"x"] [c!"y", c!"+", c!"y"],
     .defineFn c!"f4" [c!"x", c!"y", c!"z"] [c!"(", c!"x", c!"+", c!"y", c!")", c!"*", c!"z"]] =
    q!"# [ doc ( hidden ) ] # [ macro_export ] macro_rules ! __cmacro__f1 { ( $ x : expr ) => { $ x *"
    ++ [.int (2) []]
    ++ q!"} ; } pub use __cmacro__f1 as f1 ; # [ doc ( hidden ) ] # [ macro_export ] macro_rules !"
    ++ q!"__cmacro__f2 { ( $ y : expr ) => { $ y * $ y *"
    ++ [.int (2) []]
    ++ q!"} ; } pub use __cmacro__f2 as f2 ; # [ doc ( hidden ) ] # [ macro_export ] macro_rules !"
    ++ q!"__cmacro__f3 { ( $ x : expr ) => { x + x } ; } pub use __cmacro__f3 as f3 ; # [ doc ( hidden ) ]"
    ++ q!"# [ macro_export ] macro_rules ! __cmacro__f4 { ( $ x : expr , $ y : expr , $ z : expr ) => { ("
    ++ q!"$ x + $ y ) * $ z } ; } pub use __cmacro__f4 as f4 ;" := by decide +kernel

/-- /repo/tests/fixtures/null_check.h and null_check.rs -/
example : fixture []
    [.defineVar c!"NULL" [c!"(", c!"void", c!"*", c!")", c!"0"],
     .defineFn c!"IS_NULL" [c!"ptr"] [c!"ptr", c!"==", c!"NULL"],
     .defineFn c!"IS_NONNULL" [c!"ptr"] [c!"ptr", c!"!=", c!"NULL"]] =
    q!"pub const NULL : * mut c_void = ptr :: null_mut ( ) ; # [ doc ( hidden ) ] # [ macro_export ]"
    ++ q!"macro_rules ! __cmacro__IS_NULL { ( $ ptr : expr ) => { $ ptr == ptr :: null_mut ( ) } ; } pub"
    ++ q!"use __cmacro__IS_NULL as IS_NULL ; # [ doc ( hidden ) ] # [ macro_export ] macro_rules !"
    ++ q!"__cmacro__IS_NONNULL { ( $ ptr : expr ) => { $ ptr != ptr :: null_mut ( ) } ; } pub use"
    ++ q!"__cmacro__IS_NONNULL as IS_NONNULL ;" := by decide +kernel

/-- /repo/tests/fixtures/offsetof.h and offsetof.rs -/
example : fixture []
    [.defineFn c!"offsetof" [c!"type", c!"member"] [c!"__builtin_offsetof", c!"(", c!"type", c!",", c!"member", c!")"]] =
    q!"# [ doc ( hidden ) ] # [ macro_export ] macro_rules ! __cmacro__offsetof { ( $ type : ty , $"
    ++ q!"member : tt ) => { mem :: offsetof ! ( $ type , $ member ) } ; } pub use __cmacro__offsetof as"
    ++ q!"offsetof ;" := by decide +kernel

/-- /repo/tests/fixtures/pointer_arithmetic.h and pointer_arithmetic.rs -/
example : fixture []
    [.defineFn c!"PREV" [c!"x"] [c!"*", c!"(", c!"x", c!"-", c!"1", c!")"],
     .defineFn c!"NEXT" [c!"x"] [c!"*", c!"(", c!"x", c!"+", c!"1", c!")"],
     .defineFn c!"NEXT_INC" [c!"x"] [c!"*", c!"(", c!"++", c!"x", c!")"],
     .defineFn c!"CURR_INC" [c!"x"] [c!"*", c!"(", c!"x", c!"++", c!")"],
     .defineFn c!"PREV_DEC" [c!"x"] [c!"*", c!"(", c!"--", c!"x", c!")"],
     .defineFn c!"CURR_DEC" [c!"x"] [c!"*", c!"(", c!"x", c!"--", c!")"]] =
    q!"# [ doc ( hidden ) ] # [ macro_export ] macro_rules ! __cmacro__PREV { ( $ x : expr ) => { * $ x . sub ("
    ++ [.int (1) []]
    ++ q!") } ; } pub use __cmacro__PREV as PREV ; # [ doc ( hidden ) ] # [ macro_export ] macro_rules !"
    ++ q!"__cmacro__NEXT { ( $ x : expr ) => { * $ x . add ("
    ++ [.int (1) []]
    ++ q!") } ; } pub use __cmacro__NEXT as NEXT ; # [ doc ( hidden ) ] # [ macro_export ] macro_rules !"
    ++ q!"__cmacro__NEXT_INC { ( $ x : expr ) => { * { $ x = $ x . add ("
    ++ [.int (1) []]
    ++ q!") ; $ x } } ; } pub use __cmacro__NEXT_INC as NEXT_INC ; # [ doc ( hidden ) ] # [ macro_export ]"
    ++ q!"macro_rules ! __cmacro__CURR_INC { ( $ x : expr ) => { * { let prev = $ x ; $ x = $ x . add ("
    ++ [.int (1) []]
    ++ q!") ; prev } } ; } pub use __cmacro__CURR_INC as CURR_INC ; # [ doc ( hidden ) ] # [ macro_export"
    ++ q!"] macro_rules ! __cmacro__PREV_DEC { ( $ x : expr ) => { * { $ x = $ x . sub ("
    ++ [.int (1) []]
    ++ q!") ; $ x } } ; } pub use __cmacro__PREV_DEC as PREV_DEC ; # [ doc ( hidden ) ] # [ macro_export ]"
    ++ q!"macro_rules ! __cmacro__CURR_DEC { ( $ x : expr ) => { * { let prev = $ x ; $ x = $ x . sub ("
    ++ [.int (1) []]
    ++ q!") ; prev } } ; } pub use __cmacro__CURR_DEC as CURR_DEC ;" := by decide +kernel

/-- /repo/tests/fixtures/precedence.h and precedence.rs -/
example : fixture []
    [.defineFn c!"prec_rem_div1" [c!"a", c!"b", c!"c"] [c!"a", c!"%", c!"b", c!"/", c!"c"],
     .defineFn c!"prec_rem_div2" [c!"a", c!"b", c!"c"] [c!"(", c!"a", c!"%", c!"b", c!")", c!"/", c!"c"],
     .defineFn c!"prec_rem_div3" [c!"a", c!"b", c!"c"] [c!"a", c!"%", c!"(", c!"b", c!"/", c!"c", c!")"]] =
    q!"# [ doc ( hidden ) ] # [ macro_export ] macro_rules ! __cmacro__prec_rem_div1 { ( $ a : expr , $"
    ++ q!"b : expr , $ c : expr ) => { $ a % $ b / $ c } ; } pub use __cmacro__prec_rem_div1 as"
    ++ q!"prec_rem_div1 ; # [ doc ( hidden ) ] # [ macro_export ] macro_rules ! __cmacro__prec_rem_div2 {"
    ++ q!"( $ a : expr , $ b : expr , $ c : expr ) => { $ a % $ b / $ c } ; } pub use"
    ++ q!"__cmacro__prec_rem_div2 as prec_rem_div2 ; # [ doc ( hidden ) ] # [ macro_export ] macro_rules !"
    ++ q!"__cmacro__prec_rem_div3 { ( $ a : expr , $ b : expr , $ c : expr ) => { $ a % ( $ b / $ c ) } ;"
    ++ q!"} pub use __cmacro__prec_rem_div3 as prec_rem_div3 ;" := by decide +kernel

/-- /repo/tests/fixtures/sizeof.h and sizeof.rs -/
example : fixture []
    [.defineVar c!"SIZEOF_INT" [c!"sizeof", c!"(", c!"int", c!")"],
     .defineVar c!"SIZEOF_SHIFT" [c!"sizeof", c!"(", c!"int", c!")", c!"<<", c!"3"]] =
    q!"pub const SIZEOF_INT : c_size_t = mem :: size_of :: < c_int > ( ) as c_size_t ; pub const"
    ++ q!"SIZEOF_SHIFT : c_size_t = ( mem :: size_of :: < c_int > ( ) as c_size_t ) <<"
    ++ [.int (3) []]
    ++ q!";" := by decide +kernel

/-- /repo/tests/fixtures/statements.h and statements.rs -/
example : fixture []
    [.defineFn c!"vTaskDelayUntil" [c!"pxPreviousWakeTime", c!"xTimeIncrement"] [c!"do", c!"{", c!"(", c!"void", c!")", c!"xTaskDelayUntil", c!"(", c!"(", c!"pxPreviousWakeTime", c!")",
       c!",", c!"(", c!"xTimeIncrement", c!")", c!")", c!";", c!"}", c!"while", c!"(", c!"0", c!")"],
     .defineVar c!"pdFALSE" [c!"0"],
     .defineFn c!"portEND_SWITCHING_ISR" [c!"xSwitchRequired"] [c!"if", c!"(", c!"xSwitchRequired", c!"!=", c!"pdFALSE", c!")", c!"vPortYield", c!"(", c!")"],
     .defineVar c!"JSVAL_TAG_MAX_DOUBLE" [c!"(", c!"(", c!"uint32_t", c!")", c!"(", c!"0x1FFF0", c!")", c!")"],
     .defineVar c!"JSVAL_TAG_SHIFT" [c!"47"],
     .defineFn c!"JSVAL_TYPE_TO_TAG" [c!"type"] [c!"(", c!"(", c!"JSValueTag", c!")", c!"(", c!"JSVAL_TAG_MAX_DOUBLE", c!"|", c!"(", c!"type", c!")",
       c!")", c!")"],
     .defineFn c!"JSVAL_TYPE_TO_SHIFTED_TAG" [c!"type"] [c!"(", c!"(", c!"(", c!"uint64_t", c!")", c!"JSVAL_TYPE_TO_TAG", c!"(", c!"type", c!")", c!")", c!"<<",
       c!"JSVAL_TAG_SHIFT", c!")"]] =
    q!"# [ doc ( hidden ) ] # [ macro_export ] macro_rules ! __cmacro__vTaskDelayUntil { ( $"
    ++ q!"pxPreviousWakeTime : expr , $ xTimeIncrement : expr ) => { loop { { let _ = xTaskDelayUntil ( ("
    ++ q!"$ pxPreviousWakeTime ) . into ( ) , ( $ xTimeIncrement ) . into ( ) ) ; } ; if"
    ++ [.int (0) []]
    ++ q!"!="
    ++ [.int (0) []]
    ++ q!"{ continue } break } } ; } pub use __cmacro__vTaskDelayUntil as vTaskDelayUntil ; pub const"
    ++ q!"pdFALSE : _ ="
    ++ [.int (0) []]
    ++ q!"; # [ doc ( hidden ) ] # [ macro_export ] macro_rules ! __cmacro__portEND_SWITCHING_ISR { ( $"
    ++ q!"xSwitchRequired : expr ) => { if $ xSwitchRequired !="
    ++ [.int (0) []]
    ++ q!"{ vPortYield ( ) ; } } ; } pub use __cmacro__portEND_SWITCHING_ISR as portEND_SWITCHING_ISR ;"
    ++ q!"pub const JSVAL_TAG_MAX_DOUBLE : uint32_t ="
    ++ [.int (131056) c!"u32"]
    ++ q!"as uint32_t ; pub const JSVAL_TAG_SHIFT : _ ="
    ++ [.int (47) []]
    ++ q!"; # [ doc ( hidden ) ] # [ macro_export ] macro_rules ! __cmacro__JSVAL_TYPE_TO_TAG { ( $ type :"
    ++ q!"expr ) => { ("
    ++ [.int (131056) c!"u32"]
    ++ q!"as uint32_t | $ type ) as JSValueTag } ; } pub use __cmacro__JSVAL_TYPE_TO_TAG as"
    ++ q!"JSVAL_TYPE_TO_TAG ; # [ doc ( hidden ) ] # [ macro_export ] macro_rules !"
    ++ q!"__cmacro__JSVAL_TYPE_TO_SHIFTED_TAG { ( $ type : expr ) => { ( ("
    ++ [.int (131056) c!"u32"]
    ++ q!"as uint32_t | $ type ) as JSValueTag as uint64_t ) <<"
    ++ [.int (47) []]
    ++ q!"} ; } pub use __cmacro__JSVAL_TYPE_TO_SHIFTED_TAG as JSVAL_TYPE_TO_SHIFTED_TAG ;" := by decide +kernel

/-- /repo/tests/fixtures/stringify.h and stringify.rs -/
example : fixture []
    [.defineFn c!"__STRING" [c!"x"] [c!"#", c!"x"],
     .defineFn c!"DOUBLE_STRING" [c!"x"] [c!"#", c!"x", c!"#", c!"x"]] =
    q!"# [ doc ( hidden ) ] # [ macro_export ] macro_rules ! __cmacro____STRING { ( $ x : expr ) => { {"
    ++ q!"const BYTES : & [ u8 ] = concat ! ( stringify ! ( $ x ) ,"
    ++ [.char (Char.ofNat 0)]
    ++ q!") . as_bytes ( ) ; BYTES . as_ptr ( ) as * const c_char } } ; } pub use __cmacro____STRING as"
    ++ q!"__STRING ; # [ doc ( hidden ) ] # [ macro_export ] macro_rules ! __cmacro__DOUBLE_STRING { ( $ x"
    ++ q!": expr ) => { { const BYTES : & [ u8 ] = concat ! ( stringify ! ( $ x ) , stringify ! ( $ x ) ,"
    ++ [.char (Char.ofNat 0)]
    ++ q!") . as_bytes ( ) ; BYTES . as_ptr ( ) as * const c_char } } ; } pub use __cmacro__DOUBLE_STRING"
    ++ q!"as DOUBLE_STRING ;" := by decide +kernel

/-- /repo/tests/fixtures/strings.h and strings.rs (part 1) -/
example : fixture []
    [.defineVar c!"s1" [c!"\"\\xff\""],
     .defineVar c!"s2" [c!"s1", c!"s1"],
     .defineVar c!"s3" [c!"s", c!"##", c!"1", c!"s1"]] =
    q!"pub const s1 : & CStr = { # [ allow ( unsafe_code ) ] unsafe { CStr :: from_bytes_with_nul_unchecked ("
    ++ [.bytes [255, 0]]
    ++ q!") } } ; pub const s2 : & CStr = { # [ allow ( unsafe_code ) ] unsafe { CStr ::"
    ++ q!"from_bytes_with_nul_unchecked ("
    ++ [.bytes [255, 255, 0]]
    ++ q!") } } ; pub const s3 : & CStr = { # [ allow ( unsafe_code ) ] unsafe { CStr ::"
    ++ q!"from_bytes_with_nul_unchecked ("
    ++ [.bytes [255, 255, 0]]
    ++ q!") } } ;" := by decide +kernel

/-- /repo/tests/fixtures/strings.h and strings.rs (part 2) -/
example : fixture []
    [.defineVar c!"HELLO1" [c!"\"WORLD\""]] =
    q!"pub const HELLO1 : & CStr = { # [ allow ( unsafe_code ) ] unsafe { CStr :: from_bytes_with_nul_unchecked ("
    ++ [.bytes [87, 79, 82, 76, 68, 0]]
    ++ q!") } } ;" := by decide +kernel

/-- /repo/tests/fixtures/strings.h and strings.rs (part 3) -/
example : fixture []
    [.defineVar c!"HELLO2" [c!"(", c!"char", c!"*", c!"const", c!")", c!"\"WORLD\""]] =
    q!"pub const HELLO2 : & CStr = { # [ allow ( unsafe_code ) ] unsafe { CStr :: from_bytes_with_nul_unchecked ("
    ++ [.bytes [87, 79, 82, 76, 68, 0]]
    ++ q!") } } ;" := by decide +kernel

/-- /repo/tests/fixtures/strings.h and strings.rs (part 4) -/
example : fixture []
    [.defineFn c!"HELLO3" [] [c!"\"!\""]] =
    q!"# [ allow ( non_snake_case , unused_mut , unsafe_code ) ] # [ inline ( always ) ] pub unsafe extern"
    ++ [.str c!"C"]
    ++ q!"fn HELLO3 ( ) -> * const c_char { { const BYTES : & [ u8 ;"
    ++ [.int (2) []]
    ++ q!"] ="
    ++ [.bytes [33, 0]]
    ++ q!"; BYTES . as_ptr ( ) as * const c_char } }" := by decide +kernel

/-- /repo/tests/fixtures/strings.h and strings.rs (part 5) -/
example : fixture []
    [.defineVar c!"CAST_STRING" [c!"(", c!"int", c!"*", c!")", c!"\"STRINGINT\""]] =
    q!"pub const CAST_STRING : * mut c_int = { const BYTES : & [ u8 ;"
    ++ [.int (10) []]
    ++ q!"] ="
    ++ [.bytes [83, 84, 82, 73, 78, 71, 73, 78, 84, 0]]
    ++ q!"; BYTES . as_ptr ( ) as * const c_char } as * mut c_int ;" := by decide +kernel

/-- /repo/tests/fixtures/strings.h and strings.rs (part 6) -/
example : fixture []
    [.defineVar c!"UTF8" [c!"u8\"UTF-8\""]] =
    q!"pub const UTF8 : & [ u8 ;"
    ++ [.int (6) []]
    ++ q!"] ="
    ++ [.bytes [85, 84, 70, 45, 56, 0]]
    ++ q!";" := by decide +kernel

/-- /repo/tests/fixtures/strings.h and strings.rs (part 7) -/
example : fixture []
    [.defineFn c!"UTF8_FN" [] [c!"u8\"UTF-8\""]] =
    q!"# [ allow ( non_snake_case , unused_mut , unsafe_code ) ] # [ inline ( always ) ] pub unsafe extern"
    ++ [.str c!"C"]
    ++ q!"fn UTF8_FN ( ) -> * const u8 { { const BYTES : & [ u8 ;"
    ++ [.int (6) []]
    ++ q!"] ="
    ++ [.bytes [85, 84, 70, 45, 56, 0]]
    ++ q!"; BYTES . as_ptr ( ) } }" := by decide +kernel

/-- /repo/tests/fixtures/strings.h and strings.rs (part 8) -/
example : fixture []
    [.defineVar c!"UTF8_CONCAT" [c!"u8\"UTF-8\"", c!"\" and then some\""]] =
    q!"pub const UTF8_CONCAT : & [ u8 ;"
    ++ [.int (20) []]
    ++ q!"] ="
    ++ [.bytes [85, 84, 70, 45, 56, 32, 97, 110, 100, 32, 116, 104, 101, 110, 32, 115, 111, 109, 101, 0]]
    ++ q!";" := by decide +kernel

/-- /repo/tests/fixtures/strings.h and strings.rs (part 9) -/
example : fixture []
    [.defineVar c!"UTF8_CONCAT_UTF8" [c!"u8\"UTF-8\"", c!"u8\" and then some\""]] =
    q!"pub const UTF8_CONCAT_UTF8 : & [ u8 ;"
    ++ [.int (20) []]
    ++ q!"] ="
    ++ [.bytes [85, 84, 70, 45, 56, 32, 97, 110, 100, 32, 116, 104, 101, 110, 32, 115, 111, 109, 101, 0]]
    ++ q!";" := by decide +kernel

/-- /repo/tests/fixtures/strings.h and strings.rs (part 10) -/
example : fixture []
    [.defineVar c!"UTF16" [c!"u\"UTF-16\""]] =
    q!"pub const UTF16 : & [ u16 ;"
    ++ [.int (7) []]
    ++ q!"] = & ["
    ++ [.int (85) c!"u16"]
    ++ q!","
    ++ [.int (84) c!"u16"]
    ++ q!","
    ++ [.int (70) c!"u16"]
    ++ q!","
    ++ [.int (45) c!"u16"]
    ++ q!","
    ++ [.int (49) c!"u16"]
    ++ q!","
    ++ [.int (54) c!"u16"]
    ++ q!","
    ++ [.int (0) c!"u16"]
    ++ q!"] ;" := by decide +kernel

/-- /repo/tests/fixtures/strings.h and strings.rs (part 11) -/
example : fixture []
    [.defineFn c!"UTF16_FN" [] [c!"u\"UTF-16\""]] =
    q!"# [ allow ( non_snake_case , unused_mut , unsafe_code ) ] # [ inline ( always ) ] pub unsafe extern"
    ++ [.str c!"C"]
    ++ q!"fn UTF16_FN ( ) -> * const u16 { { const WORDS : & [ u16 ;"
    ++ [.int (7) []]
    ++ q!"] = & ["
    ++ [.int (85) c!"u16"]
    ++ q!","
    ++ [.int (84) c!"u16"]
    ++ q!","
    ++ [.int (70) c!"u16"]
    ++ q!","
    ++ [.int (45) c!"u16"]
    ++ q!","
    ++ [.int (49) c!"u16"]
    ++ q!","
    ++ [.int (54) c!"u16"]
    ++ q!","
    ++ [.int (0) c!"u16"]
    ++ q!"] ; WORDS . as_ptr ( ) } }" := by decide +kernel

/-- /repo/tests/fixtures/strings.h and strings.rs (part 12) -/
example : fixture []
    [.defineVar c!"UTF16_CONCAT" [c!"u\"UTF-16\"", c!"\"and then some\""]] =
    q!"pub const UTF16_CONCAT : & [ u16 ;"
    ++ [.int (20) []]
    ++ q!"] = & ["
    ++ [.int (85) c!"u16"]
    ++ q!","
    ++ [.int (84) c!"u16"]
    ++ q!","
    ++ [.int (70) c!"u16"]
    ++ q!","
    ++ [.int (45) c!"u16"]
    ++ q!","
    ++ [.int (49) c!"u16"]
    ++ q!","
    ++ [.int (54) c!"u16"]
    ++ q!","
    ++ [.int (97) c!"u16"]
    ++ q!","
    ++ [.int (110) c!"u16"]
    ++ q!","
    ++ [.int (100) c!"u16"]
    ++ q!","
    ++ [.int (32) c!"u16"]
    ++ q!","
    ++ [.int (116) c!"u16"]
    ++ q!","
    ++ [.int (104) c!"u16"]
    ++ q!","
    ++ [.int (101) c!"u16"]
    ++ q!","
    ++ [.int (110) c!"u16"]
    ++ q!","
    ++ [.int (32) c!"u16"]
    ++ q!","
    ++ [.int (115) c!"u16"]
    ++ q!","
    ++ [.int (111) c!"u16"]
    ++ q!","
    ++ [.int (109) c!"u16"]
    ++ q!","
    ++ [.int (101) c!"u16"]
    ++ q!","
    ++ [.int (0) c!"u16"]
    ++ q!"] ;" := by decide +kernel

/-- /repo/tests/fixtures/strings.h and strings.rs (part 13) -/
example : fixture []
    [.defineVar c!"UTF16_CONCAT_UTF16" [c!"u\"UTF-16\"", c!"u\"and then some\""]] =
    q!"pub const UTF16_CONCAT_UTF16 : & [ u16 ;"
    ++ [.int (20) []]
    ++ q!"] = & ["
    ++ [.int (85) c!"u16"]
    ++ q!","
    ++ [.int (84) c!"u16"]
    ++ q!","
    ++ [.int (70) c!"u16"]
    ++ q!","
    ++ [.int (45) c!"u16"]
    ++ q!","
    ++ [.int (49) c!"u16"]
    ++ q!","
    ++ [.int (54) c!"u16"]
    ++ q!","
    ++ [.int (97) c!"u16"]
    ++ q!","
    ++ [.int (110) c!"u16"]
    ++ q!","
    ++ [.int (100) c!"u16"]
    ++ q!","
    ++ [.int (32) c!"u16"]
    ++ q!","
    ++ [.int (116) c!"u16"]
    ++ q!","
    ++ [.int (104) c!"u16"]
    ++ q!","
    ++ [.int (101) c!"u16"]
    ++ q!","
    ++ [.int (110) c!"u16"]
    ++ q!","
    ++ [.int (32) c!"u16"]
    ++ q!","
    ++ [.int (115) c!"u16"]
    ++ q!","
    ++ [.int (111) c!"u16"]
    ++ q!","
    ++ [.int (109) c!"u16"]
    ++ q!","
    ++ [.int (101) c!"u16"]
    ++ q!","
    ++ [.int (0) c!"u16"]
    ++ q!"] ;" := by decide +kernel

/-- /repo/tests/fixtures/strings.h and strings.rs (part 14) -/
example : fixture []
    [.defineVar c!"UTF32" [c!"U\"UTF-32\""]] =
    q!"pub const UTF32 : & [ u32 ;"
    ++ [.int (7) []]
    ++ q!"] = & ["
    ++ [.int (85) c!"u32"]
    ++ q!","
    ++ [.int (84) c!"u32"]
    ++ q!","
    ++ [.int (70) c!"u32"]
    ++ q!","
    ++ [.int (45) c!"u32"]
    ++ q!","
    ++ [.int (51) c!"u32"]
    ++ q!","
    ++ [.int (50) c!"u32"]
    ++ q!","
    ++ [.int (0) c!"u32"]
    ++ q!"] ;" := by decide +kernel

/-- /repo/tests/fixtures/strings.h and strings.rs (part 15) -/
example : fixture []
    [.defineFn c!"UTF32_FN" [] [c!"U\"UTF-32\""]] =
    q!"# [ allow ( non_snake_case , unused_mut , unsafe_code ) ] # [ inline ( always ) ] pub unsafe extern"
    ++ [.str c!"C"]
    ++ q!"fn UTF32_FN ( ) -> * const u32 { { const DWORDS : & [ u32 ;"
    ++ [.int (7) []]
    ++ q!"] = & ["
    ++ [.int (85) c!"u32"]
    ++ q!","
    ++ [.int (84) c!"u32"]
    ++ q!","
    ++ [.int (70) c!"u32"]
    ++ q!","
    ++ [.int (45) c!"u32"]
    ++ q!","
    ++ [.int (51) c!"u32"]
    ++ q!","
    ++ [.int (50) c!"u32"]
    ++ q!","
    ++ [.int (0) c!"u32"]
    ++ q!"] ; DWORDS . as_ptr ( ) } }" := by decide +kernel

/-- /repo/tests/fixtures/strings.h and strings.rs (part 16) -/
example : fixture []
    [.defineVar c!"UTF32_CONCAT" [c!"U\"UTF-32\"", c!"\"and then some\""]] =
    q!"pub const UTF32_CONCAT : & [ u32 ;"
    ++ [.int (20) []]
    ++ q!"] = & ["
    ++ [.int (85) c!"u32"]
    ++ q!","
    ++ [.int (84) c!"u32"]
    ++ q!","
    ++ [.int (70) c!"u32"]
    ++ q!","
    ++ [.int (45) c!"u32"]
    ++ q!","
    ++ [.int (51) c!"u32"]
    ++ q!","
    ++ [.int (50) c!"u32"]
    ++ q!","
    ++ [.int (97) c!"u32"]
    ++ q!","
    ++ [.int (110) c!"u32"]
    ++ q!","
    ++ [.int (100) c!"u32"]
    ++ q!","
    ++ [.int (32) c!"u32"]
    ++ q!","
    ++ [.int (116) c!"u32"]
    ++ q!","
    ++ [.int (104) c!"u32"]
    ++ q!","
    ++ [.int (101) c!"u32"]
    ++ q!","
    ++ [.int (110) c!"u32"]
    ++ q!","
    ++ [.int (32) c!"u32"]
    ++ q!","
    ++ [.int (115) c!"u32"]
    ++ q!","
    ++ [.int (111) c!"u32"]
    ++ q!","
    ++ [.int (109) c!"u32"]
    ++ q!","
    ++ [.int (101) c!"u32"]
    ++ q!","
    ++ [.int (0) c!"u32"]
    ++ q!"] ;" := by decide +kernel

/-- /repo/tests/fixtures/strings.h and strings.rs (part 17) -/
example : fixture []
    [.defineVar c!"UTF32_CONCAT_UTF32" [c!"U\"UTF-32\"", c!"U\"and then some\""]] =
    q!"pub const UTF32_CONCAT_UTF32 : & [ u32 ;"
    ++ [.int (20) []]
    ++ q!"] = & ["
    ++ [.int (85) c!"u32"]
    ++ q!","
    ++ [.int (84) c!"u32"]
    ++ q!","
    ++ [.int (70) c!"u32"]
    ++ q!","
    ++ [.int (45) c!"u32"]
    ++ q!","
    ++ [.int (51) c!"u32"]
    ++ q!","
    ++ [.int (50) c!"u32"]
    ++ q!","
    ++ [.int (97) c!"u32"]
    ++ q!","
    ++ [.int (110) c!"u32"]
    ++ q!","
    ++ [.int (100) c!"u32"]
    ++ q!","
    ++ [.int (32) c!"u32"]
    ++ q!","
    ++ [.int (116) c!"u32"]
    ++ q!","
    ++ [.int (104) c!"u32"]
    ++ q!","
    ++ [.int (101) c!"u32"]
    ++ q!","
    ++ [.int (110) c!"u32"]
    ++ q!","
    ++ [.int (32) c!"u32"]
    ++ q!","
    ++ [.int (115) c!"u32"]
    ++ q!","
    ++ [.int (111) c!"u32"]
    ++ q!","
    ++ [.int (109) c!"u32"]
    ++ q!","
    ++ [.int (101) c!"u32"]
    ++ q!","
    ++ [.int (0) c!"u32"]
    ++ q!"] ;" := by decide +kernel

/-- /repo/tests/fixtures/strings.h and strings.rs (part 18) -/
example : fixture []
    [.defineVar c!"WIDE" [c!"L\"WIDE\""]] =
    q!"pub const WIDE : & [ wchar_t ;"
    ++ [.int (5) []]
    ++ q!"] = & ["
    ++ [.int (87) []]
    ++ q!"as wchar_t ,"
    ++ [.int (73) []]
    ++ q!"as wchar_t ,"
    ++ [.int (68) []]
    ++ q!"as wchar_t ,"
    ++ [.int (69) []]
    ++ q!"as wchar_t ,"
    ++ [.int (0) []]
    ++ q!"as wchar_t ] ;" := by decide +kernel

/-- /repo/tests/fixtures/strings.h and strings.rs (part 19) -/
example : fixture []
    [.defineFn c!"WIDE_FN" [] [c!"L\"WIDE\""]] =
    q!"# [ allow ( non_snake_case , unused_mut , unsafe_code ) ] # [ inline ( always ) ] pub unsafe extern"
    ++ [.str c!"C"]
    ++ q!"fn WIDE_FN ( ) -> * const wchar_t { { const WCHARS : & [ wchar_t ;"
    ++ [.int (5) []]
    ++ q!"] = & ["
    ++ [.int (87) []]
    ++ q!"as wchar_t ,"
    ++ [.int (73) []]
    ++ q!"as wchar_t ,"
    ++ [.int (68) []]
    ++ q!"as wchar_t ,"
    ++ [.int (69) []]
    ++ q!"as wchar_t ,"
    ++ [.int (0) []]
    ++ q!"as wchar_t ] ; WCHARS . as_ptr ( ) } }" := by decide +kernel

/-- /repo/tests/fixtures/strings.h and strings.rs (part 20) -/
example : fixture []
    [.defineVar c!"WIDE_CONCAT" [c!"L\"WIDE\"", c!"\"and then some\""]] =
    q!"pub const WIDE_CONCAT : & [ wchar_t ;"
    ++ [.int (18) []]
    ++ q!"] = & ["
    ++ [.int (87) []]
    ++ q!"as wchar_t ,"
    ++ [.int (73) []]
    ++ q!"as wchar_t ,"
    ++ [.int (68) []]
    ++ q!"as wchar_t ,"
    ++ [.int (69) []]
    ++ q!"as wchar_t ,"
    ++ [.int (97) []]
    ++ q!"as wchar_t ,"
    ++ [.int (110) []]
    ++ q!"as wchar_t ,"
    ++ [.int (100) []]
    ++ q!"as wchar_t ,"
    ++ [.int (32) []]
    ++ q!"as wchar_t ,"
    ++ [.int (116) []]
    ++ q!"as wchar_t ,"
    ++ [.int (104) []]
    ++ q!"as wchar_t ,"
    ++ [.int (101) []]
    ++ q!"as wchar_t ,"
    ++ [.int (110) []]
    ++ q!"as wchar_t ,"
    ++ [.int (32) []]
    ++ q!"as wchar_t ,"
    ++ [.int (115) []]
    ++ q!"as wchar_t ,"
    ++ [.int (111) []]
    ++ q!"as wchar_t ,"
    ++ [.int (109) []]
    ++ q!"as wchar_t ,"
    ++ [.int (101) []]
    ++ q!"as wchar_t ,"
    ++ [.int (0) []]
    ++ q!"as wchar_t ] ;" := by decide +kernel

/-- /repo/tests/fixtures/strings.h and strings.rs (part 21) -/
example : fixture []
    [.defineVar c!"WIDE_CONCAT_WIDE" [c!"L\"WIDE\"", c!"L\"and then some\""]] =
    q!"pub const WIDE_CONCAT_WIDE : & [ wchar_t ;"
    ++ [.int (18) []]
    ++ q!"] = & ["
    ++ [.int (87) []]
    ++ q!"as wchar_t ,"
    ++ [.int (73) []]
    ++ q!"as wchar_t ,"
    ++ [.int (68) []]
    ++ q!"as wchar_t ,"
    ++ [.int (69) []]
    ++ q!"as wchar_t ,"
    ++ [.int (97) []]
    ++ q!"as wchar_t ,"
    ++ [.int (110) []]
    ++ q!"as wchar_t ,"
    ++ [.int (100) []]
    ++ q!"as wchar_t ,"
    ++ [.int (32) []]
    ++ q!"as wchar_t ,"
    ++ [.int (116) []]
    ++ q!"as wchar_t ,"
    ++ [.int (104) []]
    ++ q!"as wchar_t ,"
    ++ [.int (101) []]
    ++ q!"as wchar_t ,"
    ++ [.int (110) []]
    ++ q!"as wchar_t ,"
    ++ [.int (32) []]
    ++ q!"as wchar_t ,"
    ++ [.int (115) []]
    ++ q!"as wchar_t ,"
    ++ [.int (111) []]
    ++ q!"as wchar_t ,"
    ++ [.int (109) []]
    ++ q!"as wchar_t ,"
    ++ [.int (101) []]
    ++ q!"as wchar_t ,"
    ++ [.int (0) []]
    ++ q!"as wchar_t ] ;" := by decide +kernel

/-- /repo/tests/fixtures/strings.h and strings.rs (part 22) -/
example : fixture []
    [.defineVar c!"ORDINARY_BANANA1" [c!"\"a猫🍌\""]] =
    q!"pub const ORDINARY_BANANA1 : & CStr = { # [ allow ( unsafe_code ) ] unsafe { CStr ::"
    ++ q!"from_bytes_with_nul_unchecked ("
    ++ [.bytes [97, 231, 140, 171, 240, 159, 141, 140, 0]]
    ++ q!") } } ;" := by decide +kernel

/-- /repo/tests/fixtures/strings.h and strings.rs (part 23) -/
example : fixture []
    [.defineVar c!"ORDINARY_BANANA2" [c!"\"a\\u732B\\U0001F34C\""]] =
    q!"pub const ORDINARY_BANANA2 : & CStr = { # [ allow ( unsafe_code ) ] unsafe { CStr ::"
    ++ q!"from_bytes_with_nul_unchecked ("
    ++ [.bytes [97, 231, 140, 171, 240, 159, 141, 140, 0]]
    ++ q!") } } ;" := by decide +kernel

/-- /repo/tests/fixtures/strings.h and strings.rs (part 24) -/
example : fixture []
    [.defineVar c!"UTF8_BANANA1" [c!"u8\"a猫🍌\""]] =
    q!"pub const UTF8_BANANA1 : & [ u8 ;"
    ++ [.int (9) []]
    ++ q!"] ="
    ++ [.bytes [97, 231, 140, 171, 240, 159, 141, 140, 0]]
    ++ q!";" := by decide +kernel

/-- /repo/tests/fixtures/strings.h and strings.rs (part 25) -/
example : fixture []
    [.defineVar c!"UTF8_BANANA2" [c!"u8\"a\\u732B\\U0001F34C\""]] =
    q!"pub const UTF8_BANANA2 : & [ u8 ;"
    ++ [.int (9) []]
    ++ q!"] ="
    ++ [.bytes [97, 231, 140, 171, 240, 159, 141, 140, 0]]
    ++ q!";" := by decide +kernel

/-- /repo/tests/fixtures/strings.h and strings.rs (part 26) -/
example : fixture []
    [.defineVar c!"UTF16_BANANA1" [c!"u\"a猫🍌\""]] =
    q!"pub const UTF16_BANANA1 : & [ u16 ;"
    ++ [.int (5) []]
    ++ q!"] = & ["
    ++ [.int (97) c!"u16"]
    ++ q!","
    ++ [.int (29483) c!"u16"]
    ++ q!","
    ++ [.int (55356) c!"u16"]
    ++ q!","
    ++ [.int (57164) c!"u16"]
    ++ q!","
    ++ [.int (0) c!"u16"]
    ++ q!"] ;" := by decide +kernel

/-- /repo/tests/fixtures/strings.h and strings.rs (part 27) -/
example : fixture []
    [.defineVar c!"UTF16_BANANA2" [c!"u\"a\\u732B\\U0001F34C\""]] =
    q!"pub const UTF16_BANANA2 : & [ u16 ;"
    ++ [.int (5) []]
    ++ q!"] = & ["
    ++ [.int (97) c!"u16"]
    ++ q!","
    ++ [.int (29483) c!"u16"]
    ++ q!","
    ++ [.int (55356) c!"u16"]
    ++ q!","
    ++ [.int (57164) c!"u16"]
    ++ q!","
    ++ [.int (0) c!"u16"]
    ++ q!"] ;" := by decide +kernel

/-- /repo/tests/fixtures/strings.h and strings.rs (part 28) -/
example : fixture []
    [.defineVar c!"UTF32_BANANA1" [c!"U\"a猫🍌\""]] =
    q!"pub const UTF32_BANANA1 : & [ u32 ;"
    ++ [.int (4) []]
    ++ q!"] = & ["
    ++ [.int (97) c!"u32"]
    ++ q!","
    ++ [.int (29483) c!"u32"]
    ++ q!","
    ++ [.int (127820) c!"u32"]
    ++ q!","
    ++ [.int (0) c!"u32"]
    ++ q!"] ;" := by decide +kernel

/-- /repo/tests/fixtures/strings.h and strings.rs (part 29) -/
example : fixture []
    [.defineVar c!"UTF32_BANANA2" [c!"U\"a\\u732B\\U0001F34C\""]] =
    q!"pub const UTF32_BANANA2 : & [ u32 ;"
    ++ [.int (4) []]
    ++ q!"] = & ["
    ++ [.int (97) c!"u32"]
    ++ q!","
    ++ [.int (29483) c!"u32"]
    ++ q!","
    ++ [.int (127820) c!"u32"]
    ++ q!","
    ++ [.int (0) c!"u32"]
    ++ q!"] ;" := by decide +kernel

/-- /repo/tests/fixtures/strings.h and strings.rs (part 30) -/
example : fixture []
    [.defineVar c!"WIDE_BANANA1" [c!"L\"a猫🍌\""]] =
    q!"pub const WIDE_BANANA1 : & [ wchar_t ;"
    ++ [.int (4) []]
    ++ q!"] = & ["
    ++ [.int (97) []]
    ++ q!"as wchar_t ,"
    ++ [.int (29483) []]
    ++ q!"as wchar_t ,"
    ++ [.int (127820) []]
    ++ q!"as wchar_t ,"
    ++ [.int (0) []]
    ++ q!"as wchar_t ] ;" := by decide +kernel

/-- /repo/tests/fixtures/strings.h and strings.rs (part 31) -/
example : fixture []
    [.defineVar c!"WIDE_BANANA2" [c!"L\"a\\u732B\\U0001F34C\""]] =
    q!"pub const WIDE_BANANA2 : & [ wchar_t ;"
    ++ [.int (4) []]
    ++ q!"] = & ["
    ++ [.int (97) []]
    ++ q!"as wchar_t ,"
    ++ [.int (29483) []]
    ++ q!"as wchar_t ,"
    ++ [.int (127820) []]
    ++ q!"as wchar_t ,"
    ++ [.int (0) []]
    ++ q!"as wchar_t ] ;" := by decide +kernel

/-- /repo/tests/fixtures/strings.h and strings.rs (part 32) -/
example : fixture []
    [.defineVar c!"INTERIOR_NULL_BYTE" [c!"\"a\\0b\""]] =
    q!"pub const INTERIOR_NULL_BYTE : & [ u8 ;"
    ++ [.int (4) []]
    ++ q!"] ="
    ++ [.bytes [97, 0, 98, 0]]
    ++ q!";" := by decide +kernel

/-- /repo/tests/fixtures/ternary.h and ternary.rs -/
example : fixture []
    [.defineVar c!"OK" [c!"0"],
     .defineFn c!"IS_OK" [c!"val"] [c!"val", c!"==", c!"OK", c!"?", c!"true", c!":", c!"false"],
     .defineFn c!"ZERO_OR_EVEN" [c!"val"] [c!"val", c!"==", c!"0", c!"?", c!"true", c!":", c!"val", c!"%", c!"2", c!"==", c!"0", c!"?", c!"true",
       c!":", c!"false"],
     .defineVar c!"TERNARY_PRECEDENCE1" [c!"1", c!"?", c!"2", c!":", c!"3", c!"==", c!"3"],
     .defineVar c!"TERNARY_PRECEDENCE2" [c!"1", c!"?", c!"2", c!":", c!"(", c!"3", c!"==", c!"3", c!")"],
     .defineVar c!"TERNARY_PRECEDENCE3" [c!"(", c!"1", c!"?", c!"2", c!":", c!"3", c!")", c!"==", c!"3"]] =
    q!"pub const OK : _ ="
    ++ [.int (0) []]
    ++ q!"; # [ doc ( hidden ) ] # [ macro_export ] macro_rules ! __cmacro__IS_OK { ( $ val : expr ) => {"
    ++ q!"if $ val =="
    ++ [.int (0) []]
    ++ q!"{ true } else { false } } ; } pub use __cmacro__IS_OK as IS_OK ; # [ doc ( hidden ) ] # ["
    ++ q!"macro_export ] macro_rules ! __cmacro__ZERO_OR_EVEN { ( $ val : expr ) => { if $ val =="
    ++ [.int (0) []]
    ++ q!"{ true } else { if $ val %"
    ++ [.int (2) []]
    ++ q!"=="
    ++ [.int (0) []]
    ++ q!"{ true } else { false } } } ; } pub use __cmacro__ZERO_OR_EVEN as ZERO_OR_EVEN ; pub const"
    ++ q!"TERNARY_PRECEDENCE1 : bool = if"
    ++ [.int (1) []]
    ++ q!"!="
    ++ [.int (0) []]
    ++ q!"{"
    ++ [.int (2) []]
    ++ q!"} else {"
    ++ [.int (3) []]
    ++ q!"=="
    ++ [.int (3) []]
    ++ q!"} ; pub const TERNARY_PRECEDENCE2 : bool = if"
    ++ [.int (1) []]
    ++ q!"!="
    ++ [.int (0) []]
    ++ q!"{"
    ++ [.int (2) []]
    ++ q!"} else {"
    ++ [.int (3) []]
    ++ q!"=="
    ++ [.int (3) []]
    ++ q!"} ; pub const TERNARY_PRECEDENCE3 : bool = if"
    ++ [.int (1) []]
    ++ q!"!="
    ++ [.int (0) []]
    ++ q!"{"
    ++ [.int (2) []]
    ++ q!"} else {"
    ++ [.int (3) []]
    ++ q!"} =="
    ++ [.int (3) []]
    ++ q!";" := by decide +kernel

/-- /repo/tests/fixtures/undefined_variable.h and undefined_variable.rs -/
example : fixture []
    [.defineVar c!"UNDEFINED_VARIABLE" [c!"(", c!"int", c!")", c!"VAR"]] =
    [] := by decide +kernel

/-- /repo/tests/fixtures/var_args.h and var_args.rs -/
example : fixture []
    [.defineFn c!"USBD_UsrLog" [c!"..."] [c!"printf", c!"(", c!"__VA_ARGS__", c!")", c!";", c!"printf", c!"(", c!"\"\\n\"", c!")", c!";"]] =
    q!"# [ doc ( hidden ) ] # [ macro_export ] macro_rules ! __cmacro__USBD_UsrLog { ( $ ( $"
    ++ q!"__VA_ARGS__ : expr ) , * ) => { { printf ( $ ( $ __VA_ARGS__ ) , * ) ; printf ( { const BYTES :"
    ++ q!"& [ u8 ;"
    ++ [.int (2) []]
    ++ q!"] ="
    ++ [.bytes [10, 0]]
    ++ q!"; BYTES . as_ptr ( ) as * const c_char } ) ; } } ; } pub use __cmacro__USBD_UsrLog as USBD_UsrLog ;" := by decide +kernel

/-- /repo/tests/fixtures/void_cast.h and void_cast.rs -/
example : fixture []
    [.defineFn c!"VOID_CAST" [c!"x"] [c!"(", c!"void", c!")", c!"x"]] =
    q!"# [ doc ( hidden ) ] # [ macro_export ] macro_rules ! __cmacro__VOID_CAST { ( $ x : expr ) => {"
    ++ q!"{ let _ = $ x ; } } ; } pub use __cmacro__VOID_CAST as VOID_CAST ;" := by decide +kernel

/-- /repo/tests/fixtures/volatile_ptr.h and volatile_ptr.rs -/
example : fixture []
    [.defineVar c!"PTR" [c!"(", c!"*", c!"(", c!"(", c!"volatile", c!"int", c!"*", c!")", c!"0xdeafbeef", c!")", c!")"],
     .defineFn c!"ASSIGN" [] [c!"PTR", c!"=", c!"42", c!";"],
     .defineFn c!"ADD_ASSIGN" [] [c!"PTR", c!"+=", c!"42", c!";"],
     .defineFn c!"INC" [] [c!"++", c!"PTR", c!";"],
     .defineFn c!"POST_INC" [] [c!"PTR", c!"++", c!";"],
     .defineFn c!"DEC" [] [c!"--", c!"PTR", c!";"],
     .defineFn c!"POST_DEC" [] [c!"PTR", c!"--", c!";"]] =
    q!"# [ allow ( non_snake_case , unused_mut , unsafe_code ) ] # [ inline ( always ) ] pub unsafe extern"
    ++ [.str c!"C"]
    ++ q!"fn ASSIGN ( ) { { let value ="
    ++ [.int (42) []]
    ++ q!"; ptr :: write_volatile ("
    ++ [.int (3736059631) c!"u32"]
    ++ q!"as * mut c_int , value ) ; value } ; ; } # [ allow ( non_snake_case , unused_mut , unsafe_code )"
    ++ q!"] # [ inline ( always ) ] pub unsafe extern"
    ++ [.str c!"C"]
    ++ q!"fn ADD_ASSIGN ( ) { { let value = ptr :: read_volatile ("
    ++ [.int (3736059631) c!"u32"]
    ++ q!"as * mut c_int ) +"
    ++ [.int (42) []]
    ++ q!"; ptr :: write_volatile ("
    ++ [.int (3736059631) c!"u32"]
    ++ q!"as * mut c_int , value ) ; value } ; ; } # [ allow ( non_snake_case , unused_mut , unsafe_code )"
    ++ q!"] # [ inline ( always ) ] pub unsafe extern"
    ++ [.str c!"C"]
    ++ q!"fn INC ( ) { { let value = ptr :: read_volatile ("
    ++ [.int (3736059631) c!"u32"]
    ++ q!"as * mut c_int ) +"
    ++ [.int (1) []]
    ++ q!"; ptr :: write_volatile ("
    ++ [.int (3736059631) c!"u32"]
    ++ q!"as * mut c_int , value ) ; value } ; ; } # [ allow ( non_snake_case , unused_mut , unsafe_code )"
    ++ q!"] # [ inline ( always ) ] pub unsafe extern"
    ++ [.str c!"C"]
    ++ q!"fn POST_INC ( ) { { let value = ptr :: read_volatile ("
    ++ [.int (3736059631) c!"u32"]
    ++ q!"as * mut c_int ) ; ptr :: write_volatile ("
    ++ [.int (3736059631) c!"u32"]
    ++ q!"as * mut c_int , value +"
    ++ [.int (1) []]
    ++ q!") ; value } ; ; } # [ allow ( non_snake_case , unused_mut , unsafe_code ) ] # [ inline ( always"
    ++ q!") ] pub unsafe extern"
    ++ [.str c!"C"]
    ++ q!"fn DEC ( ) { { let value = ptr :: read_volatile ("
    ++ [.int (3736059631) c!"u32"]
    ++ q!"as * mut c_int ) -"
    ++ [.int (1) []]
    ++ q!"; ptr :: write_volatile ("
    ++ [.int (3736059631) c!"u32"]
    ++ q!"as * mut c_int , value ) ; value } ; ; } # [ allow ( non_snake_case , unused_mut , unsafe_code )"
    ++ q!"] # [ inline ( always ) ] pub unsafe extern"
    ++ [.str c!"C"]
    ++ q!"fn POST_DEC ( ) { { let value = ptr :: read_volatile ("
    ++ [.int (3736059631) c!"u32"]
    ++ q!"as * mut c_int ) ; ptr :: write_volatile ("
    ++ [.int (3736059631) c!"u32"]
    ++ q!"as * mut c_int , value -"
    ++ [.int (1) []]
    ++ q!") ; value } ; ; }" := by decide +kernel

end CMacro
