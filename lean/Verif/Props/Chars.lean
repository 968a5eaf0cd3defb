import Verif.Spec.Chars
import Verif.Props.Floats
import Verif.Props.Wrapper

/-!
# C83: character constants

From the spelling of a character constant to the constant of Rust.
-/

namespace CMacro
open Spec (Op Table Item Expands IsIdent ItemText CToken Prefix ChrText Elem TwoHex StableTy RustTypes RustCast RustLit charTy inFfi CalmCtx RInt
  chrToken Gram constValue)

/-- **C83**, in full: a constant defined as a character constant has the value and the type of C.  `wchar_t` is the type that the user
of the crate supplies.  An ordinary character constant is meant to be written in ASCII or as an escape with a number; others are
implementation-defined in C. -/
def C83_statement : Prop :=
  ∀ (signedChar : Bool) (I : RustTypes signedChar) (C : Ctx) (name : Str) (p : Prefix) (t : Str) (e : Elem) (wide : RTy) (w : RInt),
    C.env.Lawful → CalmCtx C → C.resolveTy c!"wchar_t" = some wide → StableTy C.ffiPrefix wide → I.ty wide.toks = some w → w.Has e.num →
    ChrText t e → TwoHex t → e.num ≤ p.max → (p = .none → ∀ c : Char, e = .raw c ∨ e = .ucn c → c.toNat < 128) →
    ∃ l code, Lit.tryFrom (chrToken p t) = some l ∧
      VarMacro.Generates C ⟨name, .expr (.lit l)⟩ (.ok (code, some (charTy C.ffiPrefix wide.toks p))) ∧
      RustCast I code (charTy C.ffiPrefix wide.toks p) (constValue signedChar p e.num)

/-- The type of the generated constant: as in C, but `c_char` for ordinary character constants. -/
def Spec.charTyOf (pre : Option RPath) (wide : List RTok) : Prefix → List RTok
  | .none => inFfi pre c!"c_char"
  | p => charTy pre wide p

open Spec (charTyOf)

theorem inFfi_toks (C : Ctx) (s : Str) : (RTy.prefixed C.ffiPrefix s).toks = inFfi C.ffiPrefix s := by
  cases C.ffiPrefix with
  | none => rfl
  | some p => simp only [inFfi, RTy.prefixed, RTy.toks, RPath.toks, sepToks_last, List.append_assoc]

theorem ev_char {C : Ctx} {L : Loc} {c : LitChar} {t : Ty} {st : LState} (h : c.finish C st = .ok t) :
    Ev C L (.lit (.char c)) st ⟨.cast t (.lit (.char c)), st, .ok (some t)⟩ :=
  .step (by simp) 0 fun n _ => by simp only [finishStep, h]

theorem varOut_char {C : Ctx} {c : LitChar} {T : Ty} {ty : List RTok} {l : RTok} (hl : c.toks = [l]) (hv : T.isVoid = false)
    (ht : T.toks ⟨C, varLoc C, false⟩ = ty) (hk : toksOk C.env ty = true) (hE : C.env.Lawful) :
    varOut C ⟨.cast T (.lit (.char c)), .init, .ok (some T)⟩ = .ok ([l, .id c!"as"] ++ ty, some ty) := by
  have h1 : castToks ⟨C, varLoc C, false⟩ T (.lit (.char c)) [l] = [l, .id c!"as"] ++ ty := by
    simp [castToks, Expr.isZeroLit, hv, castOperand, Expr.prec, parenIf, ht]
  have hlk : toksOk C.env [l] = true := by rw [← hl]; exact lit_char_ok c
  have h2 : toksOk C.env ([l, .id c!"as"] ++ ty) = true := by
    have : toksOk C.env ([l] ++ (q!"as" ++ ty)) = true := by
      have := toksOk_fixed hE (ts := q!"as") (by decide)
      exact toksOk_append hlk (toksOk_append this hk)
    exact this
  simp only [varOut, LState.init, Expr.toks, Lit.toks, hl, h1, ht, Option.map_some, Option.getD_some, hk, h2]
  rfl

/-- The literal that is printed for a character constant. -/
theorem char_lit {s : Bool} (I : RustTypes s) {p : Prefix} {n : Nat} (hn : n ≤ p.max) : ∃ l, (p.lit n).toks = [l] ∧ RustLit I l n := by
  have hc : ∀ c, charOfNat n = some c → c.toNat = n := by
    intro c h
    unfold charOfNat at h
    split at h
    · rename_i hv
      cases h
      simp [Char.ofNat, hv, Char.toNat, Char.ofNatAux]
    · cases h
  have small : n ≤ 0xff → ∃ c, charOfNat n = some c := by
    intro h
    exact ⟨_, by unfold charOfNat; rw [if_pos (.inl (by omega))]⟩
  cases h : charOfNat n with
  | some c =>
    refine ⟨.char c, ?_, ?_⟩
    · cases p <;> simp only [Prefix.lit, LitChar.toks, h]
    · rw [← hc c h]; exact .char c
  | none =>
    have hbig : 0xff < n := by
      apply Nat.lt_of_not_le
      intro hle
      obtain ⟨c, h'⟩ := small hle
      rw [h] at h'; cases h'
    cases p with
    | none => exact absurd hn (by simp only [Prefix.max]; omega)
    | u8 => exact absurd hn (by simp only [Prefix.max]; omega)
    | u =>
      simp only [Prefix.max] at hn
      refine ⟨_, by simp only [Prefix.lit, LitChar.toks, h], .int I.u16 ⟨by simp, ?_⟩⟩
      show (n : Int) < 2 ^ 16
      omega
    | U =>
      simp only [Prefix.max] at hn
      refine ⟨_, by simp only [Prefix.lit, LitChar.toks, h], .int I.u32 ⟨by simp, ?_⟩⟩
      show (n : Int) < 2 ^ 32
      omega
    | L =>
      simp only [Prefix.max] at hn
      refine ⟨_, by simp only [Prefix.lit, LitChar.toks, h], .int I.u32 ⟨by simp, ?_⟩⟩
      show (n : Int) < 2 ^ 32
      omega

theorem finish_wchar {C : Ctx} {wide : RTy} (hw : C.resolveTy c!"wchar_t" = some wide) {T : Ty} (hT : Ty.fromRust C.ffiPrefix wide = .ok T) :
    finishWchar C .init = .ok T := by
  simp only [finishWchar, wcharTy, Ty.finish, IdentExpr.finish, hw, hT]

/-- **C83** for every kind of character constant: the value of C, and the type of C except for ordinary ones, which have the type `c_char`. -/
theorem C83_partial {signedChar : Bool} (I : RustTypes signedChar) (C : Ctx) (name : Str) (p : Prefix) (t : Str) (e : Elem) (wide : RTy) (w : RInt)
    (hE : C.env.Lawful) (hC : CalmCtx C) (hwt : p = .L → C.resolveTy c!"wchar_t" = some wide ∧ StableTy C.ffiPrefix wide ∧
      I.ty wide.toks = some w ∧ w.Has e.num) (ht : ChrText t e) (hx : TwoHex t) (hn : e.num ≤ p.max) :
    ∃ l code, Lit.tryFrom (chrToken p t) = some l ∧
      VarMacro.Generates C ⟨name, .expr (.lit l)⟩ (.ok (code, some (charTyOf C.ffiPrefix wide.toks p))) ∧
      RustCast I code (charTyOf C.ffiPrefix wide.toks p) (constValue signedChar p e.num) := by
  have hl := C31_exact p t e ht hx
  rw [if_pos hn] at hl
  obtain ⟨l, h1, h2⟩ := char_lit I hn
  have key : ∀ (T : Ty) (r : RInt), (p.lit e.num).finish C .init = .ok T → T.isVoid = false →
      T.toks ⟨C, varLoc C, false⟩ = charTyOf C.ffiPrefix wide.toks p → toksOk C.env (charTyOf C.ffiPrefix wide.toks p) = true →
      I.ty (charTyOf C.ffiPrefix wide.toks p) = some r → r.Cast e.num (constValue signedChar p e.num) →
      ∃ l code, Lit.tryFrom (chrToken p t) = some l ∧
      VarMacro.Generates C ⟨name, .expr (.lit l)⟩ (.ok (code, some (charTyOf C.ffiPrefix wide.toks p))) ∧
      RustCast I code (charTyOf C.ffiPrefix wide.toks p) (constValue signedChar p e.num) := by
    intro T r hf hv hT hk hI hc
    have hg := varGenerates (name := name) (ev_char (L := varLoc C) hf)
    rw [varOut_char h1 hv hT hk hE] at hg
    exact ⟨_, _, hl, hg, l, e.num, r, rfl, h2, hI, hc⟩
  cases p with
  | none =>
    have hT : (Ty.builtIn .char).toks ⟨C, varLoc C, false⟩ = inFfi C.ffiPrefix c!"c_char" := inFfi_toks C _
    refine key (.builtIn .char) ⟨8, signedChar⟩ rfl rfl hT ?_ (I.char _) ?_
    · show toksOk C.env (inFfi C.ffiPrefix c!"c_char") = true
      rw [← hT]
      exact rty_ok hE (builtIn_word hC hE .char)
    · simp only [Prefix.max] at hn
      unfold RInt.Cast RInt.Has constValue
      cases signedChar
      · simp only [Bool.false_eq_true, if_false, false_and]
        omega
      · simp only [if_true, true_and]
        split <;> omega
  | u8 =>
    refine key (.builtIn .char8T) ⟨8, false⟩ rfl rfl rfl (toksOk_fixed hE (ts := q!"u8") (by decide)) I.u8 ?_
    simp only [Prefix.max] at hn
    unfold RInt.Cast RInt.Has constValue
    simp only [Bool.false_eq_true, if_false]
    omega
  | u =>
    refine key (.builtIn .char16T) ⟨16, false⟩ rfl rfl rfl (toksOk_fixed hE (ts := q!"u16") (by decide)) I.u16 ?_
    simp only [Prefix.max] at hn
    unfold RInt.Cast RInt.Has constValue
    simp only [Bool.false_eq_true, if_false]
    omega
  | U =>
    refine key (.builtIn .char32T) ⟨32, false⟩ rfl rfl rfl (toksOk_fixed hE (ts := q!"u32") (by decide)) I.u32 ?_
    simp only [Prefix.max] at hn
    unfold RInt.Cast RInt.Has constValue
    simp only [Bool.false_eq_true, if_false]
    omega
  | L =>
    obtain ⟨a, b, c, d⟩ := hwt rfl
    obtain ⟨T, hT⟩ := stable_ok b
    refine key T w (finish_wchar a hT) ?_ (stable_toks b hT _ rfl) (rty_ok hE (hC.ty _ _ a)) c ⟨d, by simp [constValue]⟩
    cases hv : T.isVoid with
    | false => rfl
    | true =>
      have : T = .builtIn .void := by
        cases T <;> simp [Ty.isVoid] at hv
        rename_i b; cases b <;> simp at hv ⊢
      subst this
      rw [stable_void b hT, inFfi_toks] at c
      rw [show inFfi C.ffiPrefix c!"c_void" = _ ++ [RTok.id c!"c_void"] from rfl, I.void] at c
      cases c

/-- Types of Rust, for examples. -/
def someTypes : RustTypes true where
  ty ts := if ts.getLast? = some (.id c!"c_char") then some ⟨8, true⟩ else if ts = [.id c!"u8"] then some ⟨8, false⟩
    else if ts = [.id c!"u16"] then some ⟨16, false⟩ else if ts = [.id c!"u32"] then some ⟨32, false⟩
    else if ts = [.id c!"i32"] then some ⟨32, true⟩ else none
  char pre := by simp
  void pre := by
    have h : ∀ s : Str, s ≠ c!"c_void" → pre ++ [RTok.id c!"c_void"] ≠ [.id s] := by
      intro s hs h
      have := congrArg List.getLast? h
      simp at this
      exact hs this.symm
    simp [h c!"u8" (by decide), h c!"u16" (by decide), h c!"u32" (by decide), h c!"i32" (by decide)]
  u8 := by decide
  u16 := by decide
  u32 := by decide

/-- A context in which `wchar_t` is `i32`. -/
def wideCtx : Ctx := { Ctx.unit asciiEnv with resolveTy := fun n => if n = c!"wchar_t" then some (.path .plain ⟨false, [c!"i32"]⟩) else none }

theorem wideCtx_calm : CalmCtx wideCtx :=
  { calmCtx_unit asciiEnv with
    ty := by
      intro n t h
      simp only [wideCtx] at h
      split at h
      · cases h
        intro s hs
        simp at hs
        subst hs
        exact word_ascii (by decide)
      · cases h }

/-- **C83** is false of the code: an ordinary character constant has the type `c_char`, not `c_int`. -/
theorem C83_false : ¬ C83_statement := by
  intro h
  obtain ⟨l, code, h1, h2, _⟩ := h true someTypes wideCtx c!"M" .none c!"a" (.raw 'a') (.path .plain ⟨false, [c!"i32"]⟩) ⟨32, true⟩
    asciiEnv_lawful wideCtx_calm rfl (.bare rfl (by decide) (by decide)) (by decide) (by decide) (.raw (by decide) (by decide) (by decide))
    (by intro t h; simp at h) (by decide) (by rintro - c (h | h) <;> cases h; decide)
  rw [show Lit.tryFrom (chrToken .none c!"a") = some (.char (.ordinary 97)) by decide +kernel] at h1
  cases h1
  have hg : VarMacro.Generates wideCtx ⟨c!"M", .expr (.lit (.char (.ordinary 97)))⟩ (.ok ([.char 'a'] ++ q!"as c_char", some q!"c_char")) :=
    varGenerates_of 5 _ _ _ (by decide +kernel)
  have := h2.unique hg
  injection this with this
  injection this with _ this
  revert this
  decide

/-- So arithmetic with it may leave the type: `'\x7f' + 1`, which is 128 in C, becomes a sum of the type `c_char`. -/
theorem C83_false_sum : VarMacro.Generates wideCtx ⟨c!"M", .expr (.bin (.lit (.char (.ordinary 127))) .add (.lit (.int ⟨1, none⟩)))⟩
      (.ok ([.char '\x7f'] ++ q!"as c_char +" ++ [.int 1 []], some q!"c_char")) ∧
    ∃ r, someTypes.ty q!"c_char" = some r ∧ ¬ r.Has (127 + 1) :=
  ⟨varGenerates_of 5 _ _ _ (by decide +kernel), ⟨8, true⟩, by decide, by decide⟩

/-- **C83** from the definitions on (see C59): expanding, parsing and generating. -/
theorem C83_text_partial {signedChar : Bool} (I : RustTypes signedChar) (C : Ctx) (hE : C.env.Lawful) (hC : CalmCtx C) (h : List Op) (name : Str)
    (body : List Str) (hn : IsIdent C.env.xidStart C.env.xidContinue name)
    (hP : Spec.Plain (Spec.cName C.env) (Table.run h)) (hB : Spec.NoBackslash (Table.run h))
    (hdef : Table.run h name = some (.var body)) (p : Prefix) (t : Str) (e : Elem)
    (hx : Expands (Spec.cName C.env) (Table.run h) [name] (body.map (Spec.item (Spec.cName C.env))) [.other (chrToken p t)])
    (wide : RTy) (w : RInt) (hwt : p = .L → C.resolveTy c!"wchar_t" = some wide ∧ StableTy C.ffiPrefix wide ∧
      I.ty wide.toks = some w ∧ w.Has e.num) (ht : ChrText t e) (h2 : TwoHex t) (hm : e.num ≤ p.max) :
    ∃ code, MakesConst C h name code (some (charTyOf C.ffiPrefix wide.toks p)) ∧
      RustCast I code (charTyOf C.ffiPrefix wide.toks p) (constValue signedChar p e.num) := by
  obtain ⟨l, code, h3, h4, h5⟩ := C83_partial I C name p t e wide w hE hC hwt ht h2 hm
  have hl := C31_exact p t e ht h2
  rw [if_pos hm, h3] at hl
  cases hl
  refine ⟨code, ?_, h5⟩
  have hg : Gram 12 [.lit (.char (p.lit e.num))] (.lit (.char (p.lit e.num))) := by
    exact .up (.up (.up (.up (.up (.up (.up (.up (.up (.up (.up (.up .lit (by omega)) (by omega)) (by omega)) (by omega)) (by omega))
      (by omega)) (by omega)) (by omega)) (by omega)) (by omega)) (by omega)) (by omega)
  exact makesConst_text hE hn hP hB hdef hx (.other (.char ht h2 hm) .nil) hg h4

/-- `'\xff'` is -1 where `char` is signed, and `L'a'` has the type that the user gave to `wchar_t`. -/
example : (∃ l code, Lit.tryFrom c!"'\\xff'" = some l ∧
      VarMacro.Generates wideCtx ⟨c!"M", .expr (.lit l)⟩ (.ok (code, some q!"c_char")) ∧ RustCast someTypes code q!"c_char" (-1)) ∧
    ∃ l code, Lit.tryFrom c!"L'a'" = some l ∧
      VarMacro.Generates wideCtx ⟨c!"M", .expr (.lit l)⟩ (.ok (code, some q!"i32")) ∧ RustCast someTypes code q!"i32" 97 :=
  ⟨C83_partial someTypes wideCtx c!"M" .none c!"\\xff" (.code 255) (.path .plain ⟨false, [c!"i32"]⟩) ⟨32, true⟩ asciiEnv_lawful wideCtx_calm
      (by intro h; cases h) (.esc (.hex (ds := [15, 15]) (s := c!"ff") (.cons ⟨by decide, .inr ⟨by decide, by decide, by decide⟩⟩
        (.cons ⟨by decide, .inr ⟨by decide, by decide, by decide⟩⟩ .nil)) (by decide) (by intro a l d h; cases h)))
      (by intro t h; simp at h; subst h; rfl) (by decide),
    C83_partial someTypes wideCtx c!"M" .L c!"a" (.raw 'a') (.path .plain ⟨false, [c!"i32"]⟩) ⟨32, true⟩ asciiEnv_lawful wideCtx_calm
      (fun _ => ⟨rfl, .bare rfl (by decide) (by decide), by decide, by decide⟩) (.raw (by decide) (by decide) (by decide))
      (by intro t h; simp at h) (by decide)⟩

/-- `#define NL '\n'` and `#define SEP NL`. -/
def charHistory : List Op := [.defineVar c!"NL" [c!"'\\n'"], .defineVar c!"SEP" [c!"NL"]]

theorem charHistory_noBackslash : Spec.NoBackslash (Table.run charHistory) := by
  intro id d hd
  rcases run_mem hd with ⟨b, rfl, h⟩ | ⟨p, b, rfl, h⟩ <;> simp [charHistory] at h
  rcases h with ⟨rfl, rfl⟩ | ⟨rfl, rfl⟩ <;> intro s hs <;> simp [Spec.Def.body] at hs <;> subst hs
  · exact .inr ⟨.none, '\'', c!"\\n'", .inl rfl, rfl⟩
  · exact .inl (by decide)

theorem charHistory_plain : Spec.Plain (Spec.cName asciiEnv) (Table.run charHistory) := by
  have h := plain_of_check (E := asciiEnv) (h := charHistory) (by decide +kernel)
  refine ⟨h.var, fun id params body hd => ?_⟩
  rcases run_mem hd with ⟨b, h, _⟩ | ⟨_, b, h, hm⟩
  · cases h
  · simp [charHistory] at hm

theorem charHistory_expands :
    Expands (Spec.cName asciiEnv) (Table.run charHistory) [c!"SEP"] ([c!"NL"].map (Spec.item (Spec.cName asciiEnv))) [.other c!"'\\n'"] := by
  refine expands_congr (f := nameOf asciiEnv)
    (fun id d hd s hs => (cName_is asciiEnv_lawful (charHistory_noBackslash id d hd s hs)).symm) ?_
  rw [show [c!"NL"].map (Spec.item (Spec.cName asciiEnv)) = [c!"NL"].map (Spec.item (nameOf asciiEnv)) from
    List.map_congr_left fun s hs => by
      simp only [Spec.item, cName_is asciiEnv_lawful (charHistory_noBackslash c!"SEP" _ rfl s hs)]]
  rw [show [c!"NL"].map (Spec.item (nameOf asciiEnv)) = [.name c!"NL" false] from by decide +kernel]
  refine .object (b := [.other c!"'\\n'"]) (out := []) (by decide) rfl ?_ .nil
  rw [show [c!"'\\n'"].map (Spec.item (nameOf asciiEnv)) = [.other c!"'\\n'"] from by decide +kernel]
  exact .other .nil

example : ∃ code, MakesConst (.unit asciiEnv) charHistory c!"SEP" code (some q!"c_char") ∧ RustCast someTypes code q!"c_char" 10 :=
  C83_text_partial someTypes (.unit asciiEnv) asciiEnv_lawful (calmCtx_unit asciiEnv) charHistory c!"SEP" _ (by simp only [IsIdent]; decide)
    charHistory_plain charHistory_noBackslash rfl .none c!"\\n" (.code 10) charHistory_expands (.path .plain ⟨false, [c!"i32"]⟩) ⟨32, true⟩
    (by intro h; cases h) (.esc (.simple (by decide))) (by intro t h; simp at h) (by decide)

end CMacro
