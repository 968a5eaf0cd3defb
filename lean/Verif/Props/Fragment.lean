import Verif.Proofs.FragmentOnly
import Verif.Proofs.Metavar
import Verif.Props.Ambig

/-!
# The fragments of the parameters of generated macros

Properties C66.
-/

namespace CMacro
open Spec

/-- C66: a parameter that stands for an identifier is declared as `ident`, one that stands for a type as something that may be a
type, and no other parameter is declared as `ident`, so that it can still be given an expression. -/
def C66_statement : Prop :=
  ∀ (C : Ctx) (m : FnMacro) (n : Nat) (g : GenFn) (i : Nat) (x : Str), m.generate n C = .ok g → m.args[i]? = some x → x ≠ c!"..." →
    (i ∈ bodyIdents m.body ++ bodyNames m.body → DeclaredAs g i x c!"ident") ∧
    (i ∈ bodyTypes m.body → ∃ frag ∈ [c!"ident", c!"ty", c!"tt"], DeclaredAs g i x frag) ∧
    (BodyMembersNamed m.body → DeclaredAs g i x c!"ident" → i ∈ bodyIdents m.body ++ bodyNames m.body)

theorem macroParams_at : ∀ {as : List Str} {ts : List ArgTy} {i : Nat} {x : Str} {t : ArgTy}, as[i]? = some x → ts[i]? = some t → x ≠ c!"..." →
    (macroParams as ts)[i]? = some [.punct c!"$", .id x, .punct c!":", .id t.fragment]
  | [], _, _, _, _, h, _, _ => by simp at h
  | _ :: _, [], _, _, _, _, h, _ => by simp at h
  | a :: as, u :: ts, 0, x, t, ha, ht, hx => by
    simp only [List.getElem?_cons_zero, Option.some.injEq] at ha ht
    subst ha ht
    simp [macroParams, hx]
  | a :: as, u :: ts, i + 1, x, t, ha, ht, hx => by
    simpa [macroParams] using macroParams_at (as := as) (ts := ts) (by simpa using ha) (by simpa using ht) hx

theorem argTypes_only {C : Ctx} {m : Str} : ∀ {as : List Str} {ts : List ArgTy}, argTypes C m as = .ok ts → ArgTy.ident ∉ ts
  | [], ts, h => by cases h; simp
  | a :: as, ts, h => by
    simp only [argTypes] at h
    split at h
    · cases h
    · rename_i t ht
      split at h
      · cases h
      · rename_i us hus
        cases h
        have := argTypes_only hus
        simp only [List.mem_cons, not_or]
        refine ⟨?_, this⟩
        rintro rfl
        split at ht
        · split at ht <;> cases ht
        · cases ht

theorem fragment_ident {t : ArgTy} (h : t.fragment = c!"ident") : t = .ident := by
  cases t <;> first | rfl | (exact absurd h (by decide)) | (simp [ArgTy.fragment] at h)

/-- C66, for members, pasted names and declared functions, not for other declarations and types. -/
theorem C66_partial (C : Ctx) (m : FnMacro) (n : Nat) (g : GenFn) (i : Nat) (x : Str) (hg : m.generate n C = .ok g) (hx : m.args[i]? = some x)
    (hv : x ≠ c!"...") : (i ∈ bodyIdents m.body → DeclaredAs g i x c!"ident") ∧
      (BodyMembersNamed m.body → DeclaredAs g i x c!"ident" → i ∈ bodyIdents m.body) := by
  unfold FnMacro.generate at hg
  cases ht : argTypes C m.name m.args with
  | error e => rw [ht] at hg; cases hg
  | ok tys =>
    rw [ht] at hg
    dsimp only at hg
    have h1 := @body_ident C _ (expr_ident (C := C) (L := fnLoc m.args) n) m.body ⟨tys, false⟩
    have h2 := fun hn => body_only (C := C) (S := (· ∈ bodyIdents m.body)) (expr_only (C := C) (L := fnLoc m.args) n) m.body ⟨tys, false⟩ (fun _ h => h) hn
      (fun j hj => absurd (List.mem_of_getElem? hj) (argTypes_only ht))
    have hlen := (MacroBody.finish_inv (node_triv C (fnLoc m.args)) (Expr.finish_inv (node_triv C (fnLoc m.args)) n) m.body ⟨tys, false⟩).1.1
    generalize m.body.finish C (Expr.finish C (fnLoc m.args) n) ⟨tys, false⟩ = R at *
    rcases R with ⟨b, st, e | ret⟩
    · cases hg
    · have h1 := h1 rfl i
      dsimp only at hg h1 h2 hlen
      have hl : i < st.argTypes.length := by
        rw [hlen, argTypes_length ht]; exact (List.getElem?_eq_some_iff.1 hx).1
      have hti : st.argTypes[i]? = some st.argTypes[i] := List.getElem?_eq_getElem hl
      generalize st.argTypes[i] = t at hti
      have key : i ∈ bodyIdents m.body → t = .ident := fun hi => by
        have := h1 hi
        unfold LState.IsIdent at this
        rw [hti] at this; cases this; rfl
      have hall : t = .ident → st.argTypes.all ArgTy.isKnown = false := fun h => by
        subst h
        simp only [List.all_eq_false]
        exact ⟨_, List.mem_of_getElem? hti, by simp [ArgTy.isKnown]⟩
      have hmac : ∀ name body, DeclaredAs (.macro name (macroParams m.args st.argTypes) body) i x t.fragment := fun name body =>
        ⟨_, _, _, rfl, macroParams_at hx hti hv⟩
      constructor
      · intro hi
        have hk := key hi
        rw [hall hk] at hg
        simp only [Bool.not_false, Bool.or_true, Bool.true_or, if_true] at hg
        split at hg
        · cases hg
          have := hmac m.name (b.toks ⟨C, fnLoc m.args, true⟩)
          rw [hk] at this
          exact this
        · cases hg
      · intro hn hd
        refine h2 hn i ?_
        unfold LState.IsIdent
        rw [hti]
        generalize (st.exportAsMacro || (C.function m.name).isSome || namesVariadic m.args || !st.argTypes.all ArgTy.isKnown
          || Option.isNone ret) = y at hg
        cases y <;> simp only [Bool.false_eq_true, if_false, if_true] at hg <;> split at hg <;> cases hg
        · obtain ⟨_, _, _, h, _⟩ := hd; cases h
        · obtain ⟨_, _, _, h, hp⟩ := hd
          cases h
          rw [macroParams_at hx hti hv] at hp
          congr 1
          refine fragment_ident ?_
          simpa using hp

/-! ## Examples -/

/-- `#define GET(s, f, n) s->f + v_##n`. -/
def getMacro : FnMacro :=
  ⟨c!"GET", [c!"s", c!"f", c!"n"],
    .expr (.bin (.bin (.un .deref (.var (.arg 0))) .memberAccess (.var (.arg 1))) .add (.var (.concat [.plain c!"v_", .arg 2])))⟩

/-- Members and parts of pasted names are identifiers, `s` is not. -/
example (g : GenFn) (h : getMacro.generate 9 (.unit asciiEnv) = .ok g) :
    DeclaredAs g 1 c!"f" c!"ident" ∧ DeclaredAs g 2 c!"n" c!"ident" ∧ ¬ DeclaredAs g 0 c!"s" c!"ident" := by
  refine ⟨(C66_partial _ _ _ _ 1 _ h rfl (by decide)).1 (by decide +kernel), (C66_partial _ _ _ _ 2 _ h rfl (by decide)).1 (by decide +kernel), fun hd => ?_⟩
  exact absurd ((C66_partial _ _ _ _ 0 _ h rfl (by decide)).2 ⟨by simp, ⟨by simp, trivial, trivial⟩, trivial⟩ hd) (by decide +kernel)

/-- What is generated. -/
example : ∃ body, getMacro.generate 9 (.unit asciiEnv) = .ok (.macro c!"GET" [q!"$ s : expr", q!"$ f : ident", q!"$ n : ident"] body) :=
  ⟨q!"( * $ s ) . $ f + concat_idents ! ( v_ , $ n )", by decide +kernel⟩

/-! ## The full claim is false -/

/-- `#define SIZE(T) sizeof ( T )`. -/
def sizeMacro : FnMacro := ⟨c!"SIZE", [c!"T"], .expr (.sizeOf (.ident (.arg 0) false))⟩

/-- `#define DECL(x) { int x = 1 ; }`. -/
def declMacro : FnMacro := ⟨c!"DECL", [c!"x"], .stmt (.block [.varDecl ⟨.builtIn .int, .arg 0, .lit (.int ⟨1, none⟩), false⟩])⟩

/-- `#define FN(x) int f_##x ( int y )`. -/
def fnMacro : FnMacro :=
  ⟨c!"FN", [c!"x"], .stmt (.fnDecl ⟨.builtIn .int, .concat [.plain c!"f_", .arg 0], [(.builtIn .int, .plain c!"y")]⟩)⟩

/-- The parameter of `SIZE` is an expression, although it stands for a type, which makes the macro useless. -/
theorem size_expr : sizeMacro.generate 9 (.unit asciiEnv) =
    .ok (.macro c!"SIZE" [q!"$ T : expr"] q!"mem :: size_of :: < $ T > ( ) as c_size_t") := by decide +kernel

/-- The parameter of `DECL` is an expression, although it stands for the name of a variable. -/
theorem decl_expr : ∃ body, declMacro.generate 9 (.unit asciiEnv) = .ok (.macro c!"DECL" [q!"$ x : expr"] body) :=
  ⟨q!"{ let mut $ x : c_int =" ++ [.int 1 []] ++ q!"; }", by decide +kernel⟩

/-- The parameter of `FN` is an expression, although it stands for a part of the name of a function. -/
theorem fn_expr : ∃ body, fnMacro.generate 9 (.unit asciiEnv) = .ok (.macro c!"FN" [q!"$ x : expr"] body) :=
  ⟨q!"extern" ++ [.str c!"C"] ++ q!"{ pub fn concat_idents ! ( f_ , $ x ) ( y : c_int ) -> c_int ; }", by decide +kernel⟩

/-- The full claim is false. -/
theorem C66_false : ¬ C66_statement := by
  intro h
  obtain ⟨frag, hf, _, _, _, he, hp⟩ := (h _ _ _ _ 0 c!"T" size_expr rfl (by decide)).2.1 (by decide +kernel)
  cases he
  revert frag
  decide

end CMacro
