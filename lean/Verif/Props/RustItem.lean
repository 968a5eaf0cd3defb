import Verif.Proofs.RustItem
import Verif.Props.Template
import Verif.Props.Ambig
import Verif.Props.Pipeline
import Verif.Proofs.Panic2

/-!
# C95: generated text consists of items that make the macro available under its name
-/

namespace CMacro
open Spec (Grouped itemsOf Provides Op)

/-- The text generated for a function-like macro consists of Rust items that make the macro available under its own name, with its own parameters in
their order: either an exported `macro_rules!` macro and a `pub use` of it, or one public function.  All groups of the text are closed. -/
theorem C95 (n : Nat) (C : Ctx) (m : FnMacro) (hC : ∀ id e, C.resolveEnumVariant id = some e → Grouped e.2) (hd : c!"..." ∉ m.args.dropLast) (out : GenFn)
    (hg : m.generate n C = .ok out) : ∃ is, itemsOf out.toks = some is ∧ Provides m.name m.args out is := by
  unfold FnMacro.generate at hg
  cases ht : argTypes C m.name m.args with
  | error e => rw [ht] at hg; cases hg
  | ok tys =>
    rw [ht] at hg
    dsimp only at hg
    have hlen := (MacroBody.finish_inv (NodeInv.triv C (fnLoc m.args)) (Expr.finish_inv (NodeInv.triv C (fnLoc m.args)) n) m.body ⟨tys, false⟩).1.1
    generalize m.body.finish C (Expr.finish C (fnLoc m.args) n) ⟨tys, false⟩ = R at *
    rcases R with ⟨b, st, e | ret⟩
    · cases hg
    · dsimp only at hg hlen
      have hl : st.argTypes.length = m.args.length := hlen.trans (argTypes_length ht)
      generalize hx : (st.exportAsMacro || (C.function m.name).isSome || namesVariadic m.args || !st.argTypes.all ArgTy.isKnown
        || Option.isNone ret) = x at hg
      cases x <;> simp only [Bool.false_eq_true, if_false, if_true] at hg <;> split at hg <;> cases hg
      · simp only [Bool.or_eq_false_iff, Bool.not_eq_false', namesVariadic, decide_eq_false_iff_not] at hx
        have hn : c!"..." ∉ m.args := by
          intro h
          rcases List.eq_nil_or_concat m.args with he | ⟨as, a, he⟩
          · rw [he] at h; cases h
          · rw [List.concat_eq_append] at he
            rw [he, List.dropLast_concat] at hd
            rw [he] at h
            rcases List.mem_append.1 h with h | h
            · exact hd h
            · rw [List.mem_singleton] at h
              apply hx.1.1.2
              rw [he, ← h, List.getLast?_concat]
        have hP : c!"..." ∉ (⟨C, fnLoc m.args, false⟩ : PCtx).L.argNames := hn
        have hb : Bal (b.toks ⟨C, fnLoc m.args, false⟩) := bal_body hC b
        have hr : ∀ t ∈ retToks ⟨C, fnLoc m.args, false⟩ ret, TyText t := by
          intro t h
          cases ret with
          | none => cases h
          | some r =>
            simp only [retToks] at h
            split at h
            · cases h
            · cases h
              exact tyText_ty hP r
        refine ⟨_, items_fn m.name (fnParams_text hP _ _) hr hb, ?_⟩
        have hnames := fnParams_names (P := ⟨C, fnLoc m.args, false⟩) m.args st.argTypes hl hx.1.2
        have hdrop : ((fnParams ⟨C, fnLoc m.args, false⟩ m.args st.argTypes).map (q!"mut" ++ ·)).map (·.drop 1)
            = fnParams ⟨C, fnLoc m.args, false⟩ m.args st.argTypes := by
          rw [List.map_map]
          exact List.map_id' _
        cases retToks ⟨C, fnLoc m.args, false⟩ ret with
        | none => exact .unit hnames hdrop
        | some t =>
          rw [Option.isNone_some, if_neg (by simp), List.append_nil]
          exact .fn hnames hdrop
      · have hb : Bal (b.toks ⟨C, fnLoc m.args, true⟩) := bal_body hC b
        obtain ⟨ps, h1, h2⟩ := matcher_read m.args st.argTypes hl hd
        exact ⟨_, items_macro m.name (bal_sep bal_punct_sep (macroParams_bal _ _)) hb, .rules (by simp) h1 h2⟩

/-- The value and the type generated for a variable-like macro have all groups closed. -/
theorem C95_var (n : Nat) (C : Ctx) (m : VarMacro) (hC : ∀ id e, C.resolveEnumVariant id = some e → Grouped e.2) (v : List RTok) (t : Option (List RTok))
    (hg : m.generate n C = .ok (v, t)) : Grouped v ∧ ∀ u ∈ t, Grouped u := by
  unfold VarMacro.generate at hg
  split at hg
  · cases hg
  · split at hg
    · cases hg
    · rename_i e st t' _
      dsimp only at hg
      have key : ∀ {a b : Bool} {out : List RTok × Option (List RTok)} {x y : CgFail},
          (if a = true then .error x else if b = true then .error y else .ok out : CgRes _) = .ok (v, t) → out = (v, t) := by
        intro a b out x y h
        cases a <;> cases b <;> cases h
        rfl
      have ho := key hg
      split at ho
      · cases ho
        refine ⟨bal_iff.1 (bal_string _ _ true).2, fun u h => ?_⟩
        cases h
        exact bal_iff.1 (bal_string _ _ true).1
      · cases ho
        refine ⟨bal_iff.1 (bal_expr hC e), fun u h => ?_⟩
        obtain ⟨y, _, rfl⟩ := Option.map_eq_some_iff.1 h
        exact bal_iff.1 (bal_ty _ y)

/-- From the definition: whatever has been defined, the items make the macro available under its name, with the parameters of the definition, except for
comments, in their order. -/
theorem C95_macro (n : Nat) (C : Ctx) (hE : C.env.Lawful) (hC : ∀ id e, C.resolveEnumVariant id = some e → Grouped e.2) (h : List Op) (name : Str)
    (params body : List Str) (hf : Spec.Table.run h name = some (.fn params body)) (hc : NoContinuation params) (out : GenFn)
    (hg : pipeFn n C h name = .gen (.ok out)) :
    ∃ (named ids dots : List Str) (is : List Spec.RustItem), Spec.withoutComments params = named ++ dots ∧ (dots = [] ∨ dots = [c!"..."]) ∧
      named.map (nameOf C.env) = ids.map some ∧ itemsOf out.toks = some is ∧ Provides name (ids ++ dots) out is := by
  unfold pipeFn at hg
  split at hg
  · cases hg
  · rename_i as ts hx
    obtain ⟨named, ids, dots, h1, h2, h3, h4⟩ := C45_parameters_reach_parse C.env hE h name params body hf hc n as ts hx
    split at hg
    · cases hg
    · rename_i m hm
      have ha := (h4 name ts).2 m hm
      have hn : m.name = name := by
        unfold FnMacro.parse at hm
        repeat' split at hm
        all_goals first | cases hm; done | (cases hm; rfl)
      have hi : c!"..." ∉ ids := fun hm => by
        have hs : some c!"..." ∈ ids.map some := List.mem_map.2 ⟨_, hm, rfl⟩
        rw [← h3] at hs
        obtain ⟨s, _, hs⟩ := List.mem_map.1 hs
        have := isIdent_iff.2 (identTryFrom_isIdent (fromStr_ident.1 (nameOf_fromStr hs)).2)
        rw [dots_not_ident hE] at this
        cases this
      have hd : c!"..." ∉ m.args.dropLast := by
        rw [ha]
        rcases h2 with rfl | rfl
        · rw [List.append_nil]
          exact fun hm => hi ((List.dropLast_sublist _).subset hm)
        · rw [List.dropLast_concat]
          exact hi
      obtain ⟨is, h5, h6⟩ := C95 n C m hC hd out (PipeRes.gen.inj hg)
      rw [ha, hn] at h6
      exact ⟨named, ids, dots, is, h1, h2, h3, h5, h6⟩

/-! ## Examples -/

open Spec (RustItem) in
deriving instance DecidableEq for RustItem

/-- `#define LOG(level, fmt, ...) log ( level , fmt , __VA_ARGS__ )`: a macro. -/
example : (itemsOf <$> (match pipeFn 20 (Ctx.unit asciiEnv) [.defineFn c!"LOG" [c!"level", c!"fmt", c!"..."]
      [c!"log", c!"(", c!"level", c!",", c!"fmt", c!",", c!"__VA_ARGS__", c!")"]] c!"LOG" with
    | .gen (.ok g) => some g.toks
    | _ => none)) = some (some [.rules [q!"doc ( hidden )", q!"macro_export"] c!"__cmacro__LOG"
      q!"$ level : expr , $ fmt : expr , $ ( $ __VA_ARGS__ : expr ) , *"
      q!"log ( ( $ level ) . into ( ) , ( $ fmt ) . into ( ) , $ ( $ __VA_ARGS__ ) , * )", .reexport c!"__cmacro__LOG" c!"LOG"]) ∧
    Spec.readMatcher q!"$ level : expr , $ fmt : expr , $ ( $ __VA_ARGS__ : expr ) , *" =
      some [(c!"level", c!"expr"), (c!"fmt", c!"expr"), (c!"...", c!"expr")] := by
  decide +kernel

/-- `#define NEG(a) - a` with a known type for `a`: a function. -/
example : (itemsOf <$> (match pipeFn 20 aTyped [.defineFn c!"NEG" [c!"a"] [c!"-", c!"a"]] c!"NEG" with
    | .gen (.ok g) => some g.toks
    | _ => none)) = some (some [.fn [q!"allow ( non_snake_case , unused_mut , unsafe_code )", q!"inline ( always )"] c!"NEG" [q!"mut a : i32"]
      (some q!"i32") q!"- a"]) := by
  decide +kernel

/-- The theorem for the first of these. -/
example (n : Nat) (out : GenFn) (hg : pipeFn n (Ctx.unit asciiEnv) [.defineFn c!"LOG" [c!"level", c!"fmt", c!"..."]
      [c!"log", c!"(", c!"level", c!",", c!"fmt", c!",", c!"__VA_ARGS__", c!")"]] c!"LOG" = .gen (.ok out)) :
    ∃ is, itemsOf out.toks = some is ∧ Provides c!"LOG" [c!"level", c!"fmt", c!"..."] out is := by
  obtain ⟨named, ids, dots, is, h1, h2, h3, h4, h5⟩ := C95_macro n _ asciiEnv_lawful (by intro _ _ h; cases h) _ _ [c!"level", c!"fmt", c!"..."] _ rfl
    (by decide) out hg
  have e : named = [c!"level", c!"fmt"] ∧ dots = [c!"..."] := by
    have hw : Spec.withoutComments [c!"level", c!"fmt", c!"..."] = [c!"level", c!"fmt", c!"..."] := by decide +kernel
    rw [hw] at h1
    rcases h2 with rfl | rfl
    · rw [List.append_nil] at h1
      subst h1
      exfalso
      have hd : nameOf asciiEnv c!"..." = none := by decide +kernel
      have hm : nameOf asciiEnv c!"..." ∈ ids.map some := by
        rw [← h3]
        exact List.mem_map.2 ⟨_, by simp, rfl⟩
      rw [hd] at hm
      obtain ⟨_, _, hs⟩ := List.mem_map.1 hm
      cases hs
    · exact ⟨(List.append_cancel_right (as := [c!"level", c!"fmt"]) h1).symm, rfl⟩
  obtain ⟨rfl, rfl⟩ := e
  have hi : ids = [c!"level", c!"fmt"] := by
    have : ([c!"level", c!"fmt"].map (nameOf asciiEnv)) = [c!"level", c!"fmt"].map some := by decide +kernel
    rw [show (Ctx.unit asciiEnv).env = asciiEnv from rfl, this] at h3
    exact (List.map_inj_right (fun _ _ => Option.some.inj)).1 h3.symm
  rw [hi] at h5
  exact ⟨is, h4, h5⟩

/-- Text that is not read: a private function, a function without `unsafe`, an unclosed body, a macro without rule. -/
example : itemsOf q!"unsafe extern fn f ( ) { }" = none ∧ itemsOf (q!"pub extern" ++ [.str c!"C"] ++ q!"fn f ( ) { }") = none ∧
    itemsOf (q!"pub unsafe extern" ++ [.str c!"C"] ++ q!"fn f ( ) { ( }") = none ∧ itemsOf q!"macro_rules ! f { }" = none := by
  decide +kernel

/-- A macro that is not exported under the name of the C macro does not make it available. -/
example (attrs : List (List RTok)) (m b : List RTok) (out : GenFn) : ¬ Provides c!"F" [] out [.rules attrs c!"__cmacro__F" m b, .reexport c!"__cmacro__F" c!"G"] ∧
    ¬ Provides c!"F" [] out [.rules attrs c!"__cmacro__F" m b] := by
  constructor <;> intro h <;> cases h

/-- The condition on the tokens the user gives for enum variants is needed: an unclosed bracket among them is printed as it is. -/
def openVariant : Ctx := { (Ctx.unit asciiEnv) with resolveEnumVariant := fun v => if v = c!"RED" then some (.prefixed none c!"Color", q!"Color ( RED") else none }

example : (itemsOf <$> (match pipeFn 20 openVariant [.defineFn c!"F" [c!"a"] [c!"a", c!"+", c!"RED"]] c!"F" with
    | .gen (.ok g) => some g.toks
    | _ => none)) = some none := by
  decide +kernel

end CMacro
