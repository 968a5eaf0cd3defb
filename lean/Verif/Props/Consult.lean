import Verif.Proofs.Consult
import Verif.Props.Wrapper

/-!
# What is asked of the user of the crate

Property C91.
-/

namespace CMacro
open Spec

/-- **C91**, function-like macros: what is generated depends on nothing but the answers about the parameters and about the names that may
be asked for. -/
theorem C91_fn (N : Str → Prop) (C D : Ctx) (m : FnMacro) (hN : Asked C m.name m.body N) (h : SameOn N m.name m.args C D)
    (r : CgRes GenFn) : m.Generates C r ↔ m.Generates D r := by
  have hD : Asked D m.name m.body N := ⟨hN.self, hN.wide, hN.size, hN.body, fun x t hx ht => hN.answers x t hx (by rw [h.types x hx]; exact ht)⟩
  have : ∀ n, m.generate n C = m.generate n D := fun n => by
    rw [fnGenerate_mask hN, fnGenerate_mask hD, mask_same h]
  simp only [FnMacro.Generates, this]

/-- **C91**, variable-like macros. -/
theorem C91_var (N : Str → Prop) (C D : Ctx) (m : VarMacro) (hN : Asked C m.name m.body N) (h : SameOn N m.name [] C D)
    (r : CgRes (List RTok × Option (List RTok))) : m.Generates C r ↔ m.Generates D r := by
  have hD : Asked D m.name m.body N := ⟨hN.self, hN.wide, hN.size, hN.body, fun x t hx ht => hN.answers x t hx (by rw [h.types x hx]; exact ht)⟩
  have : ∀ n, m.generate n C = m.generate n D := fun n => by
    rw [varGenerate_mask hN, varGenerate_mask hD, mask_same h]
  simp only [VarMacro.Generates, this]

/-! ## Examples -/

theorem varGenerates_is {n : Nat} {C : Ctx} {m : VarMacro} {r : CgRes (List RTok × Option (List RTok))} (h : m.Generates C (m.generate n C))
    (hr : m.generate n C = r) : m.Generates C r := hr ▸ h

/-- A user that knows the type `word`. -/
def wordCtx : Ctx := { Ctx.unit asciiEnv with
  resolveTy := fun x => if x = c!"word" then some (.path .plain ⟨false, [c!"u32"]⟩) else none
  function := fun x => if x = c!"swab" then some ([.path .plain ⟨false, [c!"u32"]⟩], .path .plain ⟨false, [c!"u32"]⟩) else none }

/-- Another one, that knows more, but nothing else about `swab` and `word`. -/
def moreCtx : Ctx := { wordCtx with
  resolveTy := fun x => if x = c!"half" then some (.path .plain ⟨false, [c!"u16"]⟩) else wordCtx.resolveTy x
  resolveEnumVariant := fun x => if x = c!"RED" then some (.path .plain ⟨false, [c!"u8"]⟩, q!"Color :: Red") else none
  resolveFieldTy := fun _ x => if x = c!"next" then some (.path .plain ⟨false, [c!"u8"]⟩) else none
  macroArgTy := fun _ _ => none
  function := fun x => if x = c!"abs" then some ([], .unit) else wordCtx.function x }

/-- `#define SWAP(x) swab((word) x)` -/
def swapMacro : FnMacro := ⟨c!"SWAP", [c!"x"], .expr (.call (.plain c!"swab") [.cast (.ident (.plain c!"word") false) (.var (.arg 0))])⟩

/-- The names that may be asked for. -/
def swapNames (x : Str) : Prop := x ∈ [c!"SWAP", c!"wchar_t", c!"size_t", c!"swab", c!"word", c!"u32"]

theorem swap_asked : Asked wordCtx c!"SWAP" swapMacro.body swapNames where
  self := by unfold swapNames; decide
  wide := by unfold swapNames; decide
  size := by unfold swapNames; decide
  body := by
    intro x hx
    simp [swapMacro, bodyLeaves, exprLeaves, exprsLeaves, tyLeaves, nameLeaves] at hx
    rcases hx with rfl | rfl <;> (unfold swapNames; decide)
  answers := by
    intro x t _ ht y hy
    simp only [wordCtx] at ht
    split at ht
    · cases ht
      simp only [rtyWords, List.mem_singleton] at hy
      subst hy
      unfold swapNames; decide
    · cases ht

theorem swap_same : SameOn swapNames c!"SWAP" [c!"x"] wordCtx moreCtx where
  env := rfl
  isZero := rfl
  nightly := rfl
  elision := rfl
  cstr := rfl
  ffi := rfl
  trait := rfl
  params := fun _ _ => rfl
  variants := by
    intro x hx
    have : x ≠ c!"RED" := by rintro rfl; revert hx; unfold swapNames; decide
    simp [moreCtx, this, wordCtx, Ctx.unit]
  types := by
    intro x hx
    have : x ≠ c!"half" := by rintro rfl; revert hx; unfold swapNames; decide
    simp [moreCtx, this]
  fields := by
    intro _ x hx
    have : x ≠ c!"next" := by rintro rfl; revert hx; unfold swapNames; decide
    simp [moreCtx, this, wordCtx, Ctx.unit]
  functions := by
    intro x hx
    have : x ≠ c!"abs" := by rintro rfl; revert hx; unfold swapNames; decide
    simp [moreCtx, this]

/-- The second user gets the same macro. -/
example : swapMacro.Generates moreCtx (.ok (.macro c!"SWAP" [q!"$ x : expr"] (q!"swab ( ( $ x as u32 ) . into ( ) )"))) :=
  (C91_fn swapNames wordCtx moreCtx swapMacro swap_asked swap_same _).1
    (generates_is (fnGenerates_of 9 wordCtx c!"SWAP" [c!"x"] _ [.unknown] rfl (by decide +kernel)) (by kernel_rfl))

/-- A variable-like macro. -/
example : (⟨c!"W", .expr (.cast (.ident (.plain c!"word") false) (.lit (.int ⟨7, none⟩)))⟩ : VarMacro).Generates moreCtx
    (.ok ([.int 7 c!"u8"] ++ q!"as u32", some q!"u32")) := by
  have hs : SameOn swapNames c!"W" [] wordCtx moreCtx := { swap_same with params := fun _ _ => rfl }
  refine (C91_var (fun x => x = c!"W" ∨ swapNames x) wordCtx moreCtx _ ⟨.inl rfl, .inr swap_asked.wide, .inr swap_asked.size, ?_, ?_⟩
    { hs with variants := ?_, types := ?_, fields := ?_, functions := ?_ } _).1
    (varGenerates_is (varGenerates_of 9 wordCtx c!"W" _ (by decide +kernel)) (by kernel_rfl))
  · intro x hx
    simp [bodyLeaves, exprLeaves, tyLeaves, nameLeaves, litLeaves] at hx
    subst hx
    exact .inr (by unfold swapNames; decide)
  · rintro x t hx ht y hy
    rcases hx with rfl | hx
    · cases ht
    · exact .inr (swap_asked.answers x t hx ht y hy)
  · rintro x (rfl | hx)
    · rfl
    · exact swap_same.variants x hx
  · rintro x (rfl | hx)
    · rfl
    · exact swap_same.types x hx
  · rintro T x (rfl | hx)
    · rfl
    · exact swap_same.fields T x hx
  · rintro x (rfl | hx)
    · rfl
    · exact swap_same.functions x hx

/-- `size_t` has to be among the names even if the macro does not mention it: `#define S sizeof(char)`. -/
example : ∃ C D : Ctx, (∀ x, x ≠ c!"size_t" → C.resolveTy x = D.resolveTy x) ∧ C.function = D.function ∧
    C.resolveEnumVariant = D.resolveEnumVariant ∧
    (⟨c!"S", .expr (.sizeOf (.builtIn .char))⟩ : VarMacro).Generates C (.ok (q!"mem :: size_of :: < c_char > ( ) as usize", some q!"usize")) ∧
    (⟨c!"S", .expr (.sizeOf (.builtIn .char))⟩ : VarMacro).Generates D (.ok (q!"mem :: size_of :: < c_char > ( ) as u16", some q!"u16")) :=
  ⟨{ Ctx.unit asciiEnv with nightly := false },
   { Ctx.unit asciiEnv with nightly := false, resolveTy := fun x => if x = c!"size_t" then some (.path .plain ⟨false, [c!"u16"]⟩) else none },
   fun x hx => by simp [Ctx.unit, hx], rfl, rfl,
   varGenerates_is (varGenerates_of 9 _ c!"S" _ (by decide +kernel)) (by kernel_rfl),
   varGenerates_is (varGenerates_of 9 _ c!"S" _ (by decide +kernel)) (by kernel_rfl)⟩

end CMacro
