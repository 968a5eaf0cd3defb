import Verif.Spec.Worth
import Verif.Props.Trees

/-!
# C110: macros are functions of values
-/

namespace CMacro
open Spec (Op Def Table IsIdent Node Stands Worth TypedValue Widths IntTy Wraps ConstTy IsMacro CToken)

/-- What the parameters are worth and what they stand for. -/
def ValuesOf (W : Widths) (wrap : Prop) (ρ : Str → Option (Nat × IntTy × Int)) (σ : Str → Option Node) : Prop :=
  ∀ p, (ρ p = none → σ p = none) ∧ ∀ ℓ t v, ρ p = some (ℓ, t, v) → ∃ e, σ p = some (.expr ℓ e) ∧ TypedValue W wrap e t v

theorem valuesOf_none {W : Widths} {wrap : Prop} : ValuesOf W wrap (fun _ => none) (fun _ => none) :=
  fun _ => ⟨fun _ => rfl, fun _ _ _ h => by cases h⟩

theorem pick_nodes {W : Widths} {wrap : Prop} {P : List Str → Node → Prop} :
    ∀ (args : List (List Str)) (vals : List (Nat × IntTy × Int)), args.length = vals.length →
      (∀ (i : Nat) a A, args[i]? = some a → vals[i]? = some A → ∃ e, P a (.expr A.1 e) ∧ TypedValue W wrap e A.2.1 A.2.2) →
      ∃ Ns : List Node, Ns.length = vals.length ∧ (∀ (i : Nat) a N, args[i]? = some a → Ns[i]? = some N → P a N) ∧
        ∀ (i : Nat) A, vals[i]? = some A → ∃ e, Ns[i]? = some (.expr A.1 e) ∧ TypedValue W wrap e A.2.1 A.2.2
  | [], [], _, _ => ⟨[], rfl, by simp, by simp⟩
  | a :: args, A :: vals, hl, h => by
    obtain ⟨e, h1, h2⟩ := h 0 a A rfl rfl
    obtain ⟨Ns, h3, h4, h5⟩ := pick_nodes args vals (by simpa using hl) (fun i a A ha hA => h (i + 1) a A ha hA)
    refine ⟨.expr A.1 e :: Ns, by simp [h3], fun i b N hb hN => ?_, fun i B hB => ?_⟩
    · cases i with
      | zero => simp at hb hN; subst hb hN; exact h1
      | succ i => exact h4 i b N hb hN
    · cases i with
      | zero => simp at hB; subst hB; exact ⟨e, rfl, h2⟩
      | succ i => exact h5 i B hB

theorem typedValue_notVar {W : Widths} {wrap : Prop} {e : Expr} {t : IntTy} {v : Int} (h : TypedValue W wrap e t v) (n : IdentExpr) : e ≠ .var n := by
  rintro rfl
  cases h

theorem isMacro_of {E : Env} {W : Widths} {wrap : Prop} {S : List Str} {ρ : Str → Option (Nat × IntTy × Int)} {σ : Str → Option Node}
    (hv : ValuesOf W wrap ρ σ) {x : Str} (h : IsMacro E S ρ x) : IsMacro E S σ x := ⟨h.1, h.2.1, (hv x).1 h.2.2.1, h.2.2.2⟩

/-- Words of a value stand for a tree of this value. -/
theorem worth_stands {E : Env} {D : Table} {W : Widths} {wrap : Prop} {S : List Str} {ρ : Str → Option (Nat × IntTy × Int)} {ℓ : Nat} {t : IntTy}
    {v : Int} {ws : List Str} (h : Worth E D W wrap S ρ ℓ t v ws) :
    ∀ σ, ValuesOf W wrap ρ σ → ∃ e, Stands E D S σ (.expr ℓ e) ws ∧ TypedValue W wrap e t v := by
  induction h with
  | param h =>
    intro σ hv
    obtain ⟨e, h1, h2⟩ := (hv _).2 _ _ _ h
    exact ⟨e, .param h1, h2⟩
  | object hm hd _ ih =>
    intro σ hv
    obtain ⟨e, h1, h2⟩ := ih _ valuesOf_none
    exact ⟨e, .object (isMacro_of hv hm) hd h1, h2⟩
  | macroCall hm hd hp hne hl hl' _ _ ih ihb =>
    intro σ hv
    obtain ⟨Ns, h1, h2, h3⟩ := pick_nodes (P := fun a N => Stands E D _ σ N a) _ _ (hl.trans hl'.symm) (fun i a A ha hA => ih i a A ha hA σ hv)
    obtain ⟨e, h4, h5⟩ := ihb (Spec.bindNodes _ Ns) (fun p => by
      unfold Spec.bindNodes
      cases hi : Spec.paramIndex _ p with
      | none => exact ⟨fun _ => rfl, fun _ _ _ h => by cases h⟩
      | some i =>
        refine ⟨fun h => ?_, fun ℓ t v h => h3 i (ℓ, t, v) h⟩
        simp only [Option.bind_some, List.getElem?_eq_none_iff] at h ⊢
        omega)
    exact ⟨e, .macroCall (isMacro_of hv hm) hd hp hne hl (h1.trans hl') h2 h4, h5⟩
  | macroCall0 hm hd _ ih =>
    intro σ hv
    obtain ⟨e, h1, h2⟩ := ih _ valuesOf_none
    exact ⟨e, .macroCall0 (isMacro_of hv hm) hd h1, h2⟩
  | lit h ht => exact fun _ _ => ⟨_, .lit h, .lit ht⟩
  | paren _ ih =>
    intro σ hv
    obtain ⟨e, h1, h2⟩ := ih σ hv
    exact ⟨e, .paren h1 (typedValue_notVar h2), h2⟩
  | plus _ ih =>
    intro σ hv
    obtain ⟨e, h1, h2⟩ := ih σ hv
    exact ⟨_, .pre (by decide) h1, .plus h2⟩
  | neg _ hw ih =>
    intro σ hv
    obtain ⟨e, h1, h2⟩ := ih σ hv
    exact ⟨_, .pre (by decide) h1, .neg h2 hw⟩
  | bin ho ha _ _ h1 h2 h3 h4 ihl ihr =>
    intro σ hv
    obtain ⟨e, g1, g2⟩ := ihl σ hv
    obtain ⟨e', g3, g4⟩ := ihr σ hv
    exact ⟨_, .bin ho g1 g3, .bin ha g2 g4 h1 h2 h3 h4⟩
  | shl _ _ h1 h2 h3 ihl ihr =>
    intro σ hv
    obtain ⟨e, g1, g2⟩ := ihl σ hv
    obtain ⟨e', g3, g4⟩ := ihr σ hv
    exact ⟨_, .bin (ℓ := 4) (by decide) g1 g3, .shl g2 g4 h1 h2 h3⟩
  | shr _ _ h1 h2 ihl ihr =>
    intro σ hv
    obtain ⟨e, g1, g2⟩ := ihl σ hv
    obtain ⟨e', g3, g4⟩ := ihr σ hv
    exact ⟨_, .bin (ℓ := 4) (by decide) g1 g3, .shr g2 g4 h1 h2⟩
  | up _ hℓ ih =>
    intro σ hv
    obtain ⟨e, h1, h2⟩ := ih σ hv
    exact ⟨e, .up h1 hℓ, h2⟩

/-- **C110**: let the body of `name` be worth `v`, where macros are values and macros with parameters are functions of the values of
their arguments.  Then the generated constant is `v`. -/
def C110_statement : Prop :=
  ∀ (W : Widths) (C : Ctx), C.env.Lawful → ∀ (h : List Op), Spec.Plain (Spec.cName C.env) (Table.run h) → Spec.NoBackslash (Table.run h) →
    ∀ (name : Str), IsIdent C.env.xidStart C.env.xidContinue name → ∀ (body : List Str), Table.run h name = some (.var body) →
      ∀ (t : IntTy) (v : Int), Worth C.env (Table.run h) W True [name] (fun _ => none) 12 t v body → MakesConst C h name [.int v []] none

/-- C110, if no unsigned operation wraps around. -/
theorem C110_partial (W : Widths) (C : Ctx) (L : C.env.Lawful) (h : List Op) (hP : Spec.Plain (Spec.cName C.env) (Table.run h))
    (hB : Spec.NoBackslash (Table.run h)) (name : Str) (hn : IsIdent C.env.xidStart C.env.xidContinue name) (body : List Str)
    (hdef : Table.run h name = some (.var body)) (t : IntTy) (v : Int)
    (hv : Worth C.env (Table.run h) W False [name] (fun _ => none) 12 t v body) : MakesConst C h name [.int v []] none := by
  obtain ⟨e, h1, h2⟩ := worth_stands hv _ valuesOf_none
  exact C109_value W C L h hP hB name hn body hdef e h1 t v h2

/-! ## Examples

`#define SQ(x) ((x) * (x))`, `#define SIDE (1 << 2)`, `#define AREA SQ(SIDE + 1) - SIDE`, `#define MINUS(a, b) a - b`,
`#define BACK MINUS(1U, 2)`. -/

def worthOps : List Op :=
  [.defineFn c!"SQ" [c!"x"] [c!"(", c!"(", c!"x", c!")", c!"*", c!"(", c!"x", c!")", c!")"],
   .defineVar c!"SIDE" [c!"(", c!"1", c!"<<", c!"2", c!")"],
   .defineVar c!"AREA" [c!"SQ", c!"(", c!"SIDE", c!"+", c!"1", c!")", c!"-", c!"SIDE"],
   .defineFn c!"MINUS" [c!"a", c!"b"] [c!"a", c!"-", c!"b"],
   .defineVar c!"BACK" [c!"MINUS", c!"(", c!"1U", c!",", c!"2", c!")"]]

theorem worthOps_noBackslash : Spec.NoBackslash (Table.run worthOps) := by
  refine noBackslash_of ?_
  intro id d hd
  rcases run_mem hd with ⟨b, rfl, h⟩ | ⟨p, b, rfl, h⟩ <;> simp [worthOps] at h
  · rcases h with ⟨rfl, rfl⟩ | ⟨rfl, rfl⟩ | ⟨rfl, rfl⟩ <;> decide
  · rcases h with ⟨rfl, rfl, rfl⟩ | ⟨rfl, rfl, rfl⟩ <;> decide

theorem worthOps_plain : Spec.Plain (Spec.cName asciiEnv) (Table.run worthOps) := by
  have h := plain_of_check (E := asciiEnv) (h := worthOps) (by decide +kernel)
  refine ⟨h.var, fun id params body hd => ?_⟩
  obtain ⟨h1, h2, named, h3, h4, h5⟩ := h.fn id params body hd
  refine ⟨h1, h2, named, h3, h4, fun p hp => ⟨?_, (h5 p hp).2⟩⟩
  rw [cName_eq]
  · exact (h5 p hp).1
  · have hp' : p ∈ params := by rcases h3 with rfl | rfl <;> simp [hp]
    rcases run_mem hd with ⟨b, h, _⟩ | ⟨_, b, h, hm⟩
    · cases h
    · cases h
      simp [worthOps] at hm
      clear h1 h2 h3 h4 h5 hd
      have hall : ∀ p ∈ [c!"x", c!"a", c!"b"], '\\' ∉ p := by decide
      refine hall p ?_
      rcases hm with ⟨rfl, rfl, rfl⟩ | ⟨rfl, rfl, rfl⟩
      all_goals (clear hp hall; clear named; revert p; decide)

/-- Values of the definitions above. -/
abbrev WorthOf (wrap : Prop) (S : List Str) (ρ : Str → Option (Nat × IntTy × Int)) (ℓ : Nat) (t : IntTy) (v : Int) (ws : List Str) : Prop :=
  Worth asciiEnv (Table.run worthOps) .lp64 wrap S ρ ℓ t v ws

theorem worthOf_up {wrap : Prop} {S : List Str} {ρ : Str → Option (Nat × IntTy × Int)} {ℓ : Nat} {t : IntTy} {v : Int} {ws : List Str}
    (h : WorthOf wrap S ρ ℓ t v ws) : ∀ k, ℓ + k ≤ 12 → WorthOf wrap S ρ (ℓ + k) t v ws
  | 0, _ => h
  | k + 1, hk => .up (worthOf_up h k (by omega)) (show ℓ + k < 12 by omega)

theorem one_token : CToken asciiEnv c!"1" (.lit (.int ⟨1, none⟩)) :=
  .int (s := c!"1") (t := []) (v := 1) (.dec (ds := [1]) (s := c!"1") (.cons ⟨by decide, .inl (by decide)⟩ .nil) (by decide) (by decide)) (by decide) (by decide)

theorem two_token : CToken asciiEnv c!"2" (.lit (.int ⟨2, none⟩)) :=
  .int (s := c!"2") (t := []) (v := 2) (.dec (ds := [2]) (s := c!"2") (.cons ⟨by decide, .inl (by decide)⟩ .nil) (by decide) (by decide)) (by decide) (by decide)

theorem oneU_token : CToken asciiEnv c!"1U" (.lit (.int ⟨1, some .uInt⟩)) :=
  .int (s := c!"1") (t := c!"U") (v := 1) (.dec (ds := [1]) (s := c!"1") (.cons ⟨by decide, .inl (by decide)⟩ .nil) (by decide) (by decide)) (by decide) (by decide)

theorem one_worth {wrap : Prop} {S : List Str} {ρ : Str → Option (Nat × IntTy × Int)} : WorthOf wrap S ρ 0 .int 1 [c!"1"] :=
  .lit one_token ⟨true, [], _, rfl, by simp, by decide⟩

theorem two_worth {wrap : Prop} {S : List Str} {ρ : Str → Option (Nat × IntTy × Int)} : WorthOf wrap S ρ 0 .int (2 : Nat) [c!"2"] :=
  .lit two_token ⟨true, [], _, rfl, by simp, by decide⟩

theorem side_worth {wrap : Prop} : WorthOf wrap [c!"AREA"] (fun _ => none) 0 .int 4 [c!"SIDE"] := by
  refine .object ⟨isIdent_iff.1 (by decide +kernel), by decide, rfl, by decide⟩ rfl ?_
  exact .paren (ws := [c!"1", c!"<<", c!"2"]) (worthOf_up (.shl (ws := [c!"1"]) (worthOf_up one_worth 5 (by decide)) (worthOf_up two_worth 4 (by decide)) (by decide) (by decide)
    (.fits (v := 1 * 2 ^ 2) (by decide))) 7 (by decide))

/-- `AREA` is worth 21. -/
theorem area_worth : WorthOf False [c!"AREA"] (fun _ => none) 12 .int 21
    [c!"SQ", c!"(", c!"SIDE", c!"+", c!"1", c!")", c!"-", c!"SIDE"] := by
  have five : WorthOf False [c!"AREA"] (fun _ => none) 12 .int 5 [c!"SIDE", c!"+", c!"1"] :=
    worthOf_up (.bin (ℓ := 3) (p := c!"+") (op := .add) (s := .int) (t := .int) (ws := [c!"SIDE"]) (by decide) rfl (worthOf_up side_worth 4 (by decide))
      (worthOf_up one_worth 3 (by decide)) (.fits (by decide)) (.fits (by decide)) .add (.fits (v := 5) (by decide))) 8 (by decide)
  have sq : WorthOf False [c!"AREA"] (fun _ => none) 0 .int 25 (c!"SQ" :: c!"(" :: (Spec.commaWords [[c!"SIDE", c!"+", c!"1"]] ++ [c!")"])) := by
    refine .macroCall (vals := [(12, .int, 5)]) ⟨isIdent_iff.1 (by decide +kernel), by decide, rfl, by decide⟩ rfl ?_ (by simp) rfl rfl ?_ ?_
    · intro p hp; rw [List.mem_singleton.1 hp]; exact isIdent_iff.1 (by decide +kernel)
    · intro i a A ha hA
      match i with
      | 0 => simp at ha hA; subst ha hA; exact five
      | i + 1 => simp at ha
    · have px : WorthOf False [c!"SQ", c!"AREA"] (Spec.bindNodes [c!"x"] [(12, .int, 5)]) 0 .int 5 [c!"(", c!"x", c!")"] :=
        .paren (ws := [c!"x"]) (.param rfl)
      exact .paren (ws := [c!"(", c!"x", c!")", c!"*", c!"(", c!"x", c!")"]) (worthOf_up (.bin (ℓ := 2) (p := c!"*") (op := .mul) (s := .int) (t := .int)
        (ws := [c!"(", c!"x", c!")"]) (by decide) rfl (worthOf_up px 3 (by decide)) (worthOf_up px 2 (by decide)) (.fits (by decide)) (.fits (by decide)) .mul
        (.fits (v := 25) (by decide))) 9 (by decide))
  exact worthOf_up (.bin (ℓ := 3) (p := c!"-") (op := .sub) (s := .int) (t := .int) (by decide) rfl (worthOf_up sq 4 (by decide)) (worthOf_up side_worth 3 (by decide))
    (.fits (by decide)) (.fits (by decide)) .sub (.fits (v := 21) (by decide))) 8 (by decide)

example : MakesConst (.unit asciiEnv) worthOps c!"AREA" [.int 21 []] none :=
  C110_partial .lp64 (.unit asciiEnv) asciiEnv_lawful worthOps worthOps_plain worthOps_noBackslash c!"AREA" (isIdent_iff.1 (by decide +kernel)) _ rfl _ _ area_worth

/-! ## The full claim is false -/

/-- `BACK` is worth 4294967295. -/
theorem back_worth : WorthOf True [c!"BACK"] (fun _ => none) 12 .uint 4294967295 [c!"MINUS", c!"(", c!"1U", c!",", c!"2", c!")"] := by
  refine worthOf_up (ℓ := 4) (ws := c!"MINUS" :: c!"(" :: (Spec.commaWords [[c!"1U"], [c!"2"]] ++ [c!")"])) ?_ 8 (by decide)
  refine .macroCall (vals := [(0, .uint, 1), (0, .int, 2)]) ⟨isIdent_iff.1 (by decide +kernel), by decide, rfl, by decide⟩ rfl ?_ (by simp) rfl rfl ?_ ?_
  · intro p hp; refine isIdent_iff.1 ?_; revert p; decide +kernel
  · intro i a A ha hA
    match i with
    | 0 => simp at ha hA; subst ha hA; exact .lit oneU_token ⟨true, [], _, rfl, by simp, by decide⟩
    | 1 => simp at ha hA; subst ha hA; exact two_worth
    | i + 2 => simp at ha
  · exact .bin (ℓ := 3) (p := c!"-") (op := .sub) (s := .uint) (t := .int) (ws := [c!"a"]) (v := -1) (by decide) rfl (worthOf_up (.param rfl) 4 (by decide))
      (worthOf_up (.param rfl) 3 (by decide)) (.fits (by decide)) (.fits (by decide)) .sub (.wraps trivial rfl)

/-- The full claim is false, as C63 is: the constant `BACK` is -1. -/
theorem C110_false : ¬ C110_statement := by
  intro h
  obtain ⟨N, hN⟩ := h .lp64 (.unit asciiEnv) asciiEnv_lawful worthOps worthOps_plain worthOps_noBackslash c!"BACK" (isIdent_iff.1 (by decide +kernel)) _ rfl _ _ back_worth
  obtain ⟨N', hN'⟩ : MakesConst (.unit asciiEnv) worthOps c!"BACK" [.int (-1) []] none := by
    refine C109_constant (.unit asciiEnv) asciiEnv_lawful worthOps worthOps_plain worthOps_noBackslash c!"BACK" (isIdent_iff.1 (by decide +kernel)) _ rfl _ ?_ _ _
      (C26_folding_exact (.unit asciiEnv) c!"BACK" _ (-1) (.bin (.lit (n := ⟨1, some .uInt⟩)) (.lit (n := ⟨2, none⟩)) .sub (by unfold Spec.I128; decide)))
    have up : ∀ {S ρ ℓ e ws}, Stands asciiEnv (Table.run worthOps) S ρ (.expr ℓ e) ws → ∀ k, ℓ + k ≤ 12 →
        Stands asciiEnv (Table.run worthOps) S ρ (.expr (ℓ + k) e) ws := by
      intro S ρ ℓ e ws h k
      induction k with
      | zero => exact fun _ => h
      | succ k ih => exact fun hk => .up (ℓ := ℓ + k) (ih (by omega)) (by omega)
    refine up (ℓ := 4) (ws := c!"MINUS" :: c!"(" :: (Spec.commaWords [[c!"1U"], [c!"2"]] ++ [c!")"])) ?_ 8 (by decide)
    refine .macroCall (Ns := [.expr 0 (.lit (.int ⟨1, some .uInt⟩)), .expr 0 (.lit (.int ⟨2, none⟩))])
      ⟨isIdent_iff.1 (by decide +kernel), by decide, rfl, by decide⟩ rfl ?_ (by simp) rfl rfl ?_ ?_
    · intro p hp; refine isIdent_iff.1 ?_; revert p; decide +kernel
    · intro i a A ha hA
      match i with
      | 0 => simp at ha hA; subst ha hA; exact .lit oneU_token
      | 1 => simp at ha hA; subst ha hA; exact .lit two_token
      | i + 2 => simp at ha
    · exact .bin (ℓ := 3) (p := c!"-") (op := .sub) (ws := [c!"a"]) (by decide) (up (.param rfl) 4 (by decide)) (up (.param rfl) 3 (by decide))
  have h1 := hN (max N N') (by omega)
  rw [hN' (max N N') (by omega)] at h1
  exact absurd h1 (by decide)

end CMacro
