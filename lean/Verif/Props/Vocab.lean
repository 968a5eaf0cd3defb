import Verif.Proofs.Hygiene
import Verif.Props.FnValue
import Verif.Props.Wrapper

/-!
# The words of generated code

Properties C84 and C85.
-/

namespace CMacro
open Spec

/-- The user of the crate supplies the word: in a type, a path, or an enumeration variant. -/
inductive Spec.Supplied (C : Ctx) (x : Str) : Prop
  | type {id t} : C.resolveTy id = some t → x ∈ rtyWords t → Supplied C x
  | ffi {p} : C.ffiPrefix = some p → x ∈ p.segs → Supplied C x
  | trait {p} : C.traitPrefix = some p → x ∈ p.segs → Supplied C x
  | variant {id t e} : C.resolveEnumVariant id = some (t, e) → RTok.id x ∈ e → Supplied C x

/-- A word is left out of what is printed if it is not among the names. -/
theorem words_inv {C : Ctx} {L : Loc} {x : Str} {exp : Bool} (h : ¬ Supplied C x) (ho : x ∉ ownWords) (ha : x ∉ L.argNames) :
    PrintInv ⟨C, L, exp⟩ (fun y => y ≠ x) (fun _ => True) (fun ts => RTok.id x ∉ ts) where
  nil := by simp
  app := by intro a b ha hb; simp [ha, hb]
  tok := by intro t ht hm; simp only [List.mem_singleton] at hm; subst hm; exact ht
  word := by intro y hy hm; simp only [List.mem_singleton, RTok.id.injEq] at hm; exact hy hm.symm
  own := by rintro y hy - rfl; exact ho hy
  fixed := by
    intro ts hts hm
    rw [plainToks, Bool.and_eq_true, List.all_eq_true] at hts
    have := hts.1 _ hm
    simp only [List.contains_eq_mem, decide_eq_true_eq] at this
    exact ho this
  decl := by
    intro n s _ hn hm
    rcases List.mem_append.1 hm with hm | hm
    · apply ho
      cases s <;> simp at hm <;> rcases hm with rfl | rfl <;> decide
    · exact hn hm
  ffi := by rintro p hp y hy rfl; exact h (.ffi hp hy)
  trait := by rintro p hp y hy rfl; exact h (.trait hp hy)
  types := by rintro id t ht y hy rfl; exact h (.type ht hy)
  variants := by intro id t e he hm; exact h (.variant he hm)
  arg := by
    intro i hm
    simp only [argToks] at hm
    repeat' split at hm
    all_goals simp at hm
    all_goals first
      | exact ha (hm ▸ List.mem_of_getElem? (by assumption))
      | (subst hm; exact ho (by decide))
      | skip
  str := by
    intro i hm
    simp only [List.mem_cons] at hm
    rcases hm with hm | hm
    · cases hm
    · split at hm
      · rename_i n hn
        simp at hm
        subst hm
        exact ha (List.mem_of_getElem? hn)
      · simp at hm

/-- The text of a string constant. -/
theorem string_words {P : PCtx} {N : Str → Prop} {D : IdentExpr → Prop} {Q : List RTok → Prop} (I : PrintInv P N D Q) (s : LitString) :
    Q (s.toks P true).2 := by
  cases s with
  | ordinary bs =>
    simp only [LitString.toks, if_true]
    split
    · have h1 : Q (match P.C.traitPrefix with | some p => p.toks ++ q!":: ffi ::" | none => []) := by
        split
        · rename_i p hp
          exact I.app (pi_path I (I.trait p hp)) (pi_fixed I (by decide))
        · exact I.nil
      pinv I
    · exact I.tok trivial
  | utf8 s => exact I.tok trivial
  | utf16 s =>
    simp only [LitString.toks, if_true]
    refine pi_array I fun x hx => ?_
    obtain ⟨n, _, rfl⟩ := List.mem_map.1 hx
    exact I.tok trivial
  | utf32 s =>
    simp only [LitString.toks, if_true]
    refine pi_array I fun x hx => ?_
    obtain ⟨n, _, rfl⟩ := List.mem_map.1 hx
    exact I.tok trivial
  | wide ws =>
    have h1 := pi_wchar I
    simp only [LitString.toks, if_true]
    refine pi_array I fun x hx => ?_
    obtain ⟨n, _, rfl⟩ := List.mem_map.1 hx
    pinv I

/-- **C84**, function-like macros: every word in the body of the generated function or macro is one of the macro's own names or
parameters, supplied by the user of the crate, or one of a fixed list. -/
theorem C84_fn (C : Ctx) (m : FnMacro) (g : GenFn) (hg : m.Generates C (.ok g)) (x : Str) (hx : RTok.id x ∈ codeOf g) :
    Leaf.name x ∈ bodyLeaves m.body ∨ x ∈ m.args ∨ Supplied C x ∨ x ∈ ownWords := by
  obtain ⟨n, hg⟩ := hg
  have hg := hg n (Nat.le_refl _)
  apply Classical.byContradiction
  intro hn
  simp only [not_or] at hn
  obtain ⟨h1, h2, h3, h4⟩ := hn
  have hu : Unbuilt C x := ⟨fun id t ht hm => h3 (.type ht hm), by rintro rfl; exact h4 (by decide)⟩
  unfold FnMacro.generate at hg
  cases ht : argTypes C m.name m.args with
  | error e => rw [ht] at hg; cases hg
  | ok tys =>
    rw [ht] at hg
    dsimp only at hg
    have hw := name_zero.1 (body_zero hu (expr_finish_count (L := fnLoc m.args) hu n) m.body ⟨tys, false⟩ (name_zero.2 h1))
    generalize m.body.finish C (Expr.finish C (fnLoc m.args) n) ⟨tys, false⟩ = R at *
    rcases R with ⟨b, st, e | r⟩
    · cases hg
    · dsimp only at hg hw
      generalize hexp : (st.exportAsMacro || (C.function m.name).isSome || namesVariadic m.args || !st.argTypes.all ArgTy.isKnown
        || Option.isNone r) = y at hg
      have hc : RTok.id x ∉ b.toks ⟨C, fnLoc m.args, y⟩ :=
        pi_body (words_inv (L := fnLoc m.args) h3 h4 h2) (fun y hy he => hw (he ▸ hy)) fun _ _ => trivial
      cases y <;> simp only [Bool.false_eq_true, if_false, if_true] at hg <;> split at hg <;> cases hg <;> exact hc hx

/-- **C84**, variable-like macros. -/
theorem C84_var (C : Ctx) (m : VarMacro) (code : List RTok) (ty : Option (List RTok)) (hg : m.Generates C (.ok (code, ty))) (x : Str)
    (hx : RTok.id x ∈ code) : Leaf.name x ∈ bodyLeaves m.body ∨ Supplied C x ∨ x ∈ ownWords := by
  obtain ⟨n, hg⟩ := hg
  have hg := hg n (Nat.le_refl _)
  apply Classical.byContradiction
  intro hn
  simp only [not_or] at hn
  obtain ⟨h1, h3, h4⟩ := hn
  have hu : Unbuilt C x := ⟨fun id t ht hm => h3 (.type ht hm), by rintro rfl; exact h4 (by decide)⟩
  have I : ∀ exp, PrintInv ⟨C, varLoc C, exp⟩ _ _ _ := fun exp => words_inv (L := varLoc C) h3 h4 (by simp [varLoc])
  unfold VarMacro.generate at hg
  split at hg
  · cases hg
  · rename_i e he
    rw [he] at h1
    have hw := name_zero.1 (keepsZero (expr_finish_count (L := varLoc C) hu n) e .init (name_zero.2 h1))
    generalize e.finish C (varLoc C) n .init = R at *
    rcases R with ⟨b, st, e | r⟩
    · cases hg
    · dsimp only at hg hw
      split at hg
      all_goals
        split at hg
        · cases hg
        · split at hg
          · cases hg
          · cases hg
            first
              | exact string_words (I _) _ hx
              | exact pi_expr (I _) (fun y hy he => hw (he ▸ hy)) hx

/-! ## Keywords -/

/-- **C85**, in full: a name that is a keyword of Rust, and is neither written by the code generator nor supplied by the user of the
crate, is not in the body of a generated function or macro. -/
def C85_statement : Prop :=
  ∀ (C : Ctx) (m : FnMacro) (g : GenFn) (k : Str), m.Generates C (.ok g) → k ∈ rustKeywords → k ∉ ownWords → ¬ Supplied C k →
    RTok.id k ∉ codeOf g

/-- **C85** for macros in which the keyword is no name. -/
theorem C85_partial (C : Ctx) (m : FnMacro) (g : GenFn) (k : Str) (hg : m.Generates C (.ok g)) (_hk : k ∈ rustKeywords) (ho : k ∉ ownWords)
    (hs : ¬ Supplied C k) (hb : Leaf.name k ∉ bodyLeaves m.body) (ha : k ∉ m.args) : RTok.id k ∉ codeOf g :=
  fun hm => by
    rcases C84_fn C m g hg k hm with h | h | h | h
    · exact hb h
    · exact ha h
    · exact hs h
    · exact ho h

/-- **C85** for variable-like macros. -/
theorem C85_var_partial (C : Ctx) (m : VarMacro) (code : List RTok) (ty : Option (List RTok)) (k : Str) (hg : m.Generates C (.ok (code, ty)))
    (_hk : k ∈ rustKeywords) (ho : k ∉ ownWords) (hs : ¬ Supplied C k) (hb : Leaf.name k ∉ bodyLeaves m.body) : RTok.id k ∉ code :=
  fun hm => by
    rcases C84_var C m code ty hg k hm with h | h | h
    · exact hb h
    · exact hs h
    · exact ho h

theorem supplied_unit {E : Env} {x : Str} : ¬ Supplied (.unit E) x := by
  rintro (⟨h, _⟩ | ⟨h, _⟩ | ⟨h, _⟩ | ⟨h, _⟩) <;> cases h

/-- `p->f`. -/
def arrowMacro (f : Str) : FnMacro := ⟨c!"KIND", [c!"p"], .expr (.bin (.un .deref (.var (.arg 0))) .memberAccess (.var (.plain f)))⟩

theorem arrow_generates : (arrowMacro c!"type").Generates (.unit asciiEnv)
    (.ok (.macro c!"KIND" [q!"$ p : expr"] (q!"( * $ p ) . type"))) :=
  generates_is (fnGenerates_of 9 (.unit asciiEnv) c!"KIND" [c!"p"] _ [.unknown] rfl (by decide +kernel)) (by kernel_rfl)

/-- **C85** is false of the code: a member named `type`, which is an ordinary name in C, is printed as it is. -/
theorem C85_false : ¬ C85_statement := by
  intro h
  refine h _ _ _ c!"type" arrow_generates (by decide) (by decide) supplied_unit ?_
  decide

/-- `p->next` has the words `p` and `next`, and no keyword. -/
example : ∃ g, (arrowMacro c!"next").Generates (.unit asciiEnv) (.ok g) ∧ RTok.id c!"next" ∈ codeOf g ∧ RTok.id c!"type" ∉ codeOf g ∧
    ∀ x, RTok.id x ∈ codeOf g → x = c!"next" ∨ x = c!"p" ∨ x ∈ ownWords := by
  have hg : (arrowMacro c!"next").Generates (.unit asciiEnv) (.ok (.macro c!"KIND" [q!"$ p : expr"] (q!"( * $ p ) . next"))) :=
    generates_is (fnGenerates_of 9 (.unit asciiEnv) c!"KIND" [c!"p"] _ [.unknown] rfl (by decide +kernel)) (by kernel_rfl)
  have hl : ∀ x, Leaf.name x ∈ bodyLeaves (arrowMacro c!"next").body → x = c!"next" := by
    intro x hx
    simpa [arrowMacro, bodyLeaves, exprLeaves, nameLeaves] using hx
  refine ⟨_, hg, by decide, C85_partial _ _ _ _ hg (by decide) (by decide) supplied_unit (fun h => ?_) (by decide), fun x hx => ?_⟩
  · have := hl _ h
    revert this
    decide
  · rcases C84_fn _ _ _ hg x hx with h | h | h | h
    · exact .inl (hl x h)
    · simp [arrowMacro] at h
      exact .inr (.inl h)
    · exact absurd h supplied_unit
    · exact .inr (.inr h)

/-- `my_type` is `i32`. -/
def i32Ctx : Ctx :=
  { Ctx.unit asciiEnv with resolveTy := fun n => if n = c!"my_type" then some (.path .plain ⟨false, [c!"i32"]⟩) else none }

/-- `(my_type)1` with the type that the user of the crate gives. -/
example : ∀ x, RTok.id x ∈ ([.int 1 c!"u8"] ++ q!"as i32") → x ∈ [c!"i32"] ∨ x = c!"my_type" ∨ x ∈ ownWords := by
  intro x hx
  have hg : VarMacro.Generates i32Ctx ⟨c!"M", .expr (.cast (.ident (.plain c!"my_type") false) (.lit (.int ⟨1, none⟩)))⟩
      (.ok ([.int 1 c!"u8"] ++ q!"as i32", some (q!"i32"))) := varGenerates_of 9 i32Ctx c!"M" (.cast (.ident (.plain c!"my_type") false) (.lit (.int ⟨1, none⟩))) (by decide +kernel)
  rcases C84_var i32Ctx _ _ _ hg x hx with h | h | h
  · simp [bodyLeaves, exprLeaves, nameLeaves, tyLeaves, litLeaves] at h
    exact .inr (.inl h)
  · rcases h with ⟨h, h'⟩ | ⟨h, _⟩ | ⟨h, _⟩ | ⟨h, _⟩
    · simp only [i32Ctx] at h
      split at h
      · cases h
        exact .inl h'
      · cases h
    · cases h
    · cases h
    · cases h
  · exact .inr (.inr h)

end CMacro
