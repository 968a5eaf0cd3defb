import Verif.Proofs.FnValue
import Verif.Proofs.CalmPrint
import Verif.Proofs.FinishEnd

/-!
# Finishing an expression over integers never fails

The only error is a bound on the depth of calls that is too small.  The code that is printed consists of valid tokens.
-/

namespace CMacro

open Spec

/-! ## Errors come from the operands or from folding -/

section
variable {C : Ctx} {L : Loc} {n : Nat} {st st' : LState} {e' : Expr} {er : CgFail}

theorem bin_fails {l r : Expr} {op : BinOp} (hop : pureOp op = true)
    (hf : Expr.finish C L n (.bin l op r) st = ⟨e', st', .error er⟩)
    (hl : ∀ m x s er, Expr.finish C L m l st = ⟨x, s, .error er⟩ → er = .diverge)
    (hr : ∀ m l' sl lt x s er, Expr.finish C L m l st = ⟨l', sl, .ok lt⟩ → Expr.finish C L m r sl = ⟨x, s, .error er⟩ → er = .diverge)
    (hb : ∀ m l' r' sl sr lt rt, Expr.finish C L m l st = ⟨l', sl, .ok lt⟩ → Expr.finish C L m r sl = ⟨r', sr, .ok rt⟩ →
      adjustOperands op l' r' lt rt = (l', r', lt, rt) ∧ foldBinary op l' r' = none) : er = .diverge := by
  cases n with
  | zero => injection hf with _ _ hf; injection hf with hf; exact hf.symm
  | succ m =>
    rw [Expr.finish, finishStep] at hf
    cases el : Expr.finish C L m l st with
    | mk l' sl resl =>
      rw [el] at hf
      cases resl with
      | error => injection hf with _ _ hf; injection hf with hf; subst hf; exact hl _ _ _ _ el
      | ok lt =>
        dsimp only at hf
        cases er' : Expr.finish C L m r sl with
        | mk r' sr resr =>
          rw [er'] at hf
          cases resr with
          | error => injection hf with _ _ hf; injection hf with hf; subst hf; exact hr _ _ _ _ _ _ _ el er'
          | ok rt =>
            obtain ⟨h1, h2⟩ := hb _ _ _ _ _ _ _ el er'
            simp only [pureOp, Bool.and_eq_true, Bool.not_eq_true', decide_eq_false_iff_not] at hop
            have hbe : binaryEffects op l' r' sr = (sr, .ok ()) := by simp [binaryEffects, hop.2, hop.1]
            simp only [hbe, h1, if_neg hop.2, h2] at hf
            injection hf with _ _ h
            cases h

theorem un_fails {x : Expr} {op : UnOp} (hop : op = .minus ∨ op = .comp ∨ op = .not)
    (hf : Expr.finish C L n (.un op x) st = ⟨e', st', .error er⟩)
    (hx : ∀ m y s er, Expr.finish C L m x st = ⟨y, s, .error er⟩ → er = .diverge)
    (hl : ∀ m y s t, Expr.finish C L m x st = ⟨y, s, .ok t⟩ → ∀ l, y ≠ .lit l) : er = .diverge := by
  cases n with
  | zero => injection hf with _ _ hf; injection hf with hf; exact hf.symm
  | succ m =>
    rw [Expr.finish, finishStep] at hf
    cases ex : Expr.finish C L m x st with
    | mk y s res =>
      rw [ex] at hf
      cases res with
      | error => injection hf with _ _ hf; injection hf with hf; subst hf; exact hx _ _ _ _ ex
      | ok t =>
        have hl := hl _ _ _ _ ex
        obtain ⟨τ, h1⟩ : ∃ τ, unaryTy L op t = .ok τ := by rcases hop with rfl | rfl | rfl <;> exact ⟨_, rfl⟩
        obtain ⟨z, h2⟩ : ∃ z, foldUnary C op y τ = .ok z := by
          unfold foldUnary
          split <;> first | exact ⟨_, rfl⟩ | (exact absurd rfl (hl _)) | (split <;> exact ⟨_, rfl⟩)
        simp only [h1, h2] at hf
        injection hf with _ _ h
        cases h

theorem ternary_fails {c x y : Expr} (hf : Expr.finish C L n (.ternary c x y) st = ⟨e', st', .error er⟩)
    (hc : ∀ m z s er, Expr.finish C L m c st = ⟨z, s, .error er⟩ → er = .diverge)
    (hx : ∀ m c' sc tc z s er, Expr.finish C L m c st = ⟨c', sc, .ok tc⟩ → Expr.finish C L m x sc = ⟨z, s, .error er⟩ → er = .diverge)
    (hy : ∀ m c' sc tc x' sx tx z s er, Expr.finish C L m c st = ⟨c', sc, .ok tc⟩ → Expr.finish C L m x sc = ⟨x', sx, .ok tx⟩ →
      Expr.finish C L m y sx = ⟨z, s, .error er⟩ → er = .diverge) : er = .diverge := by
  cases n with
  | zero => injection hf with _ _ hf; injection hf with hf; exact hf.symm
  | succ m =>
    rw [Expr.finish, finishStep] at hf
    simp only [finishCondition] at hf
    cases ec : Expr.finish C L m c st with
    | mk c' sc resc =>
      rw [ec] at hf
      cases resc with
      | error => injection hf with _ _ hf; injection hf with hf; subst hf; exact hc _ _ _ _ ec
      | ok tc =>
        have key : ∀ d, (match Expr.finish C L m x sc with
            | ⟨t, st, .error err⟩ => (⟨.ternary d t y, st, .error err⟩ : Fin Expr)
            | ⟨t, st, .ok tt⟩ =>
              match Expr.finish C L m y st with
              | ⟨u, st, .error err⟩ => ⟨.ternary d t u, st, .error err⟩
              | ⟨u, st, .ok ut⟩ => ⟨.ternary d t u, st, .ok (joinTy tt ut)⟩) = ⟨e', st', .error er⟩ → er = .diverge := by
          intro d hf
          cases ex : Expr.finish C L m x sc with
          | mk x' sx resx =>
            rw [ex] at hf
            cases resx with
            | error => injection hf with _ _ hf; injection hf with hf; subst hf; exact hx _ _ _ _ _ _ _ ec ex
            | ok tx =>
              dsimp only at hf
              cases ey : Expr.finish C L m y sx with
              | mk y' sy resy =>
                rw [ey] at hf
                cases resy with
                | error => injection hf with _ _ hf; injection hf with hf; subst hf; exact hy _ _ _ _ _ _ _ _ _ _ ec ex ey
                | ok ty' => injection hf with _ _ h; cases h
        dsimp only at hf
        by_cases hb : tc ≠ some (.builtIn .bool)
        · rw [if_pos hb] at hf; exact key _ hf
        · rw [if_neg hb] at hf; exact key _ hf

theorem cast_fails {x : Expr} {b : BuiltInType} (hf : Expr.finish C L n (.cast (.builtIn b) x) st = ⟨e', st', .error er⟩)
    (hn : ∀ m s y, (Expr.finish C L m x st).tree ≠ .cast (.ident s false) y)
    (hx : ∀ m y s er, Expr.finish C L m x st = ⟨y, s, .error er⟩ → er = .diverge) : er = .diverge := by
  cases n with
  | zero => injection hf with _ _ hf; injection hf with hf; exact hf.symm
  | succ m =>
    rw [Expr.finish, finishStep] at hf
    simp only [Ty.finish] at hf
    cases ex : Expr.finish C L m x st with
    | mk y s res =>
      rw [ex] at hf
      have hn := hn m
      rw [ex] at hn
      cases res with
      | error e =>
        have hcp : castAsProduct (.builtIn b) y = none := by
          unfold castAsProduct
          split
          · exact absurd rfl (hn _ _)
          · rfl
        dsimp only at hf
        rw [hcp] at hf
        split at hf
        · next h => cases h
        · injection hf with _ _ hf; injection hf with hf; subst hf; exact hx _ _ _ _ ex
      | ok t =>
        dsimp only at hf
        simp only [castAsBinary, castOfString, Bool.false_eq_true, if_false] at hf
        injection hf with _ _ h
        cases h

end

variable {W : Widths}

theorem const_fails {C : Ctx} {L : Loc} {e e' : Expr} {t : IntTy} {v : Int} {n : Nat} {st st' : LState} {er : CgFail}
    (h : TypedValue W False e t v) (hf : Expr.finish C L n e st = ⟨e', st', .error er⟩) : er = .diverge := by
  obtain ⟨c, hc, _, N, hN⟩ := fold_value (C := C) (L := L) (typed_exact h).1 st
  by_cases hd : (Expr.finish C L n e st).res = .error .diverge
  · rw [hf] at hd; injection hd
  · have h1 := Expr.finish_stable (Nat.le_max_left n N) (C := C) (L := L) (e := e) (st := st) hd
    rw [hN _ (Nat.le_max_right n N), hf] at h1
    injection h1 with _ _ h3
    cases h3

/-- The errors of an operator whose operands are not both constant. -/
theorem fn_bin_fails {P : PCtx} {L : Loc} {st st' : LState} {ρ ρ' : Nat → Option (IntTy × Int)} {env env' : List RTok → Option (IntTy × Int)}
    {l r e' : Expr} {op : BinOp} {s t : IntTy} {a b : Int} {n : Nat} {er : CgFail} (hop : pureOp op = true)
    (hl : FnValue W False False ρ l (.int s a)) (hr : FnValue W False False ρ' r (.int t b)) (hc : (constant l && constant r) = false)
    (hx : op = .mul ∨ op = .add → ¬ (constant l = true ∧ isLimit r = true) ∧ ¬ (constant r = true ∧ isLimit l = true))
    (hp : Link P st ρ env) (hp' : Link P st ρ' env')
    (hf : Expr.finish P.C L n (.bin l op r) st = ⟨e', st', .error er⟩) (hsl : Separated l) (hsr : Separated r)
    (ihl : ∀ n e' st' er, Expr.finish P.C L n l st = ⟨e', st', .error er⟩ → er = .diverge)
    (ihr : ∀ n e' st' er, Expr.finish P.C L n r st = ⟨e', st', .error er⟩ → er = .diverge) : er = .diverge := by
  refine bin_fails hop hf ihl (fun m l' sl lt x s er h1 h2 => ?_) (fun m l' r' sl sr lt rt h1 h2 => ?_)
  · obtain rfl := fn_state hl h1
    exact ihr _ _ _ _ h2
  · obtain rfl := fn_state hl h1
    exact unfolded hc hx (operand hl h1 (fn_finish hl env m l' _ lt hp h1 hsl)) (operand hr h2 (fn_finish hr env' m r' _ rt hp' h2 hsr))

/-- The errors of `&&` and `||`. -/
theorem fn_logical_fails {P : PCtx} {L : Loc} {st st' : LState} {ρ ρ' : Nat → Option (IntTy × Int)} {env env' : List RTok → Option (IntTy × Int)}
    {l r e' : Expr} {op : BinOp} {a b : Bool} {n : Nat} {er : CgFail} (hop : pureOp op = true)
    (hl : FnValue W False False ρ l (.truth a)) (hr : FnValue W False False ρ' r (.truth b))
    (hp : Link P st ρ env) (hp' : Link P st ρ' env')
    (hf : Expr.finish P.C L n (.bin l op r) st = ⟨e', st', .error er⟩) (hsl : Separated l) (hsr : Separated r)
    (ihl : ∀ n e' st' er, Expr.finish P.C L n l st = ⟨e', st', .error er⟩ → er = .diverge)
    (ihr : ∀ n e' st' er, Expr.finish P.C L n r st = ⟨e', st', .error er⟩ → er = .diverge) : er = .diverge := by
  refine bin_fails hop hf ihl (fun m l' sl lt x s er h1 h2 => ?_) (fun m l' r' sl sr lt rt h1 h2 => ?_)
  · obtain rfl := fn_state hl h1
    exact ihr _ _ _ _ h2
  · obtain rfl := fn_state hl h1
    have kl : Kept W P env l l' lt (.truth a) := fn_finish hl env m l' _ lt hp h1 hsl
    have kr : Kept W P env' r r' rt (.truth b) := fn_finish hr env' m r' _ rt hp' h2 hsr
    exact ⟨adjust_both kl.lit kr.lit, fold_none (.inl kl.lit)⟩

/-- The errors of a limit and a constant. -/
theorem widened_fails {C : Ctx} {L : Loc} {n : Nat} {id : Str} {r e' : Expr} {op : BinOp} {s t : IntTy} {b : Int} {st st' : LState} {er : CgFail}
    (hop : op = .mul ∨ op = .add) (hl : limitOf id = some s.cType) (hr : TypedValue W False r t b)
    (hf : Expr.finish C L n (.bin (.var (.plain id)) op r) st = ⟨e', st', .error er⟩) : er = .diverge := by
  cases n with
  | zero => injection hf with _ _ hf; injection hf with hf; exact hf.symm
  | succ m =>
    rw [Expr.finish, finishStep] at hf
    cases m with
    | zero => injection hf with _ _ hf; injection hf with hf; exact hf.symm
    | succ m =>
      rw [show Expr.finish C L (m + 1) (.var (.plain id)) st = ⟨.var (.plain id), st, .ok (some (.builtIn s.cType))⟩ by
        rw [Expr.finish, finishStep, limit_finish hl]] at hf
      dsimp only at hf
      cases hx : Expr.finish C L (m + 1) r st with
      | mk r' sr resr =>
        rw [hx] at hf
        cases resr with
        | error => injection hf with _ _ hf; injection hf with hf; subst hf; exact const_fails hr hx
        | ok rt =>
          obtain ⟨c, h1, rfl, rfl, rfl⟩ := const_finish hr hx
          have hp : pureOp op = true := by rcases hop with rfl | rfl <;> rfl
          simp only [pureOp, Bool.and_eq_true, Bool.not_eq_true', decide_eq_false_iff_not] at hp
          have hbe : binaryEffects op (.var (.plain id)) (.lit (.int c)) sr = (sr, .ok ()) := by simp [binaryEffects, hp.2, hp.1]
          have ha : adjustOperands op (.var (.plain id)) (.lit (.int c)) (some (.builtIn s.cType)) none =
              (.cast (.builtIn s.toUnsigned.cType) (.var (.plain id)), .lit (.int c), some (.builtIn s.toUnsigned.cType), none) := by
            simp only [adjustOperands, if_pos hop, (limit_unsigned hl).1]
          have hb : foldBinary op (.cast (.builtIn s.toUnsigned.cType) (.var (.plain id))) (.lit (.int c)) = none := fold_none (.inl (by rintro l ⟨⟩))
          simp only [hbe, ha, if_neg hp.2, hb] at hf
          injection hf with _ _ h
          cases h

/-- Finishing does not fail. -/
theorem fn_fails {P : PCtx} {L : Loc} {st : LState} {ρ : Nat → Option (IntTy × Int)}
    {e : Expr} {o : Outcome} (h : FnValue W False False ρ e o) : ∀ env, Link P st ρ env → Separated e → ∀ n e' st' er,
    Expr.finish P.C L n e st = ⟨e', st', .error er⟩ → er = .diverge := by
  induction h with
  | const h => exact fun _ _ _ _ _ _ _ hf => const_fails h hf
  | @param ρ i t v hi =>
    intro env hp _ n e' st' er hf
    obtain ⟨τ, h1, _⟩ := hp.ty i t v hi
    cases n with
    | zero => injection hf with _ _ hf; injection hf with hf; exact hf.symm
    | succ n =>
      rw [Expr.finish, finishStep] at hf
      have : ∃ ty, finishVar P.C (.arg i) st = (st, .ok ty) := by
        simp only [finishVar, IdentExpr.finish, h1]
        cases τ <;> exact ⟨_, rfl⟩
      obtain ⟨ty, this⟩ := this
      rw [this] at hf
      dsimp only at hf
      injection hf with _ _ h
      cases h
  | @limit ρ id t hl _ =>
    intro env _ _ n e' st' er hf
    cases n with
    | zero => injection hf with _ _ hf; injection hf with hf; exact hf.symm
    | succ n =>
      rw [Expr.finish, finishStep, limit_finish hl] at hf
      injection hf with _ _ h
      cases h
  | @neg ρ e t v v' hc he _ _ ih =>
    exact fun env hp hs n e' st' er hf => un_fails (.inl rfl) hf (ih env hp hs.2)
      fun m y s t h => (fn_finish he env m y s t hp h hs.2 hc).lit
  | @comp ρ e t v he hc ih =>
    exact fun env hp hs n e' st' er hf => un_fails (.inr (.inl rfl)) hf (ih env hp hs.2)
      fun m y s t h => (fn_finish he env m y s t hp h hs.2 (hc.resolve_left id).1).lit
  | @not ρ e b he ih =>
    exact fun env hp hs n e' st' er hf => un_fails (.inr (.inr rfl)) hf (ih env hp hs.2)
      fun m y s t h => (show Kept W P env e y t (.truth b) from fn_finish he env m y s t hp h hs.2).lit
  | @bin ρ l r op s t a b a' b' v v' hop hc hl hr _ _ _ _ _ _ hlim ihl ihr =>
    intro env hp hs n e' st' er hf
    rw [Separated] at hs
    exact fn_bin_fails (arith_pure (by rw [hop]; rfl)).1 hl hr (by simpa [constant, hop] using hc) (hlim.resolve_left id) hp hp hf hs.2.2.2.1 hs.2.2.2.2
      (ihl env hp hs.2.2.2.1) (ihr env hp hs.2.2.2.2)
  | widened hop hl _ hr => exact fun env _ _ n e' st' er hf => widened_fails hop hl hr hf
  | @shl ρ l r s t a v' k hc hl hr _ _ _ _ ihl ihr =>
    intro env hp hs n e' st' er hf
    rw [Separated] at hs
    exact fn_bin_fails rfl hl hr (by simpa [constant] using hc) (by rintro (h | h) <;> cases h) hp hp hf hs.2.2.2.1 hs.2.2.2.2
      (ihl env hp hs.2.2.2.1) (ihr env hp hs.2.2.2.2)
  | @shr ρ l r s t a k hc hl hr _ _ _ ihl ihr =>
    intro env hp hs n e' st' er hf
    rw [Separated] at hs
    exact fn_bin_fails rfl hl hr (by simpa [constant] using hc) (by rintro (h | h) <;> cases h) hp hp hf hs.2.2.2.1 hs.2.2.2.2
      (ihl env hp hs.2.2.2.1) (ihr env hp hs.2.2.2.2)
  | @cmp ρ l r op f s t a b a' b' hop hl hr hm _ _ ihl ihr =>
    intro env hp hs n e' st' er hf
    rw [Separated] at hs
    exact fn_bin_fails (cmp_pure hop).1 hl hr (hm.resolve_left id).1 (by rintro (rfl | rfl) <;> cases hop) hp hp hf hs.2.2.2.1 hs.2.2.2.2
      (ihl env hp hs.2.2.2.1) (ihr env hp hs.2.2.2.2)
  | @andFalse ρ ρ' l r b hl hst hr ihl ihr | @orTrue ρ ρ' l r b hl hst hr ihl ihr =>
    intro env hp hs n e' st' er hf
    obtain ⟨env', _, hp'⟩ := hp.other hst
    rw [Separated] at hs
    exact fn_logical_fails rfl hl hr hp hp' hf hs.2.2.2.1 hs.2.2.2.2 (ihl env hp hs.2.2.2.1) (ihr env' hp' hs.2.2.2.2)
  | @andTrue ρ l r b hl hr ihl ihr | @orFalse ρ l r b hl hr ihl ihr =>
    intro env hp hs n e' st' er hf
    rw [Separated] at hs
    exact fn_logical_fails rfl hl hr hp hp hf hs.2.2.2.1 hs.2.2.2.2 (ihl env hp hs.2.2.2.1) (ihr env hp hs.2.2.2.2)
  | @condTrue ρ ρ' c x y o s t v w v' hc hco _ hx hst hy _ _ ihc ihx ihy =>
    intro env hp hs n e' st' er hf
    obtain ⟨env', _, hp'⟩ := hp.other hst
    rw [Separated] at hs
    refine ternary_fails hf (ihc env hp hs.2.2.1) (fun m c' sc tc z s er h1 h2 => ?_) (fun m c' sc tc x' sx tx z s er h1 h2 h3 => ?_)
    · obtain rfl := fn_state hco h1
      exact ihx env hp hs.2.2.2.1 _ _ _ _ h2
    · obtain rfl := fn_state hco h1
      obtain rfl := fn_state hx h2
      exact ihy env' hp' hs.2.2.2.2 _ _ _ _ h3
  | @condFalse ρ ρ' c x y o s t v w w' hc hco _ hst hx hy _ _ ihc ihx ihy =>
    intro env hp hs n e' st' er hf
    obtain ⟨env', _, hp'⟩ := hp.other hst
    rw [Separated] at hs
    refine ternary_fails hf (ihc env hp hs.2.2.1) (fun m c' sc tc z s er h1 h2 => ?_) (fun m c' sc tc x' sx tx z s er h1 h2 h3 => ?_)
    · obtain rfl := fn_state hco h1
      exact ihx env' hp' hs.2.2.2.1 _ _ _ _ h2
    · obtain rfl := fn_state hco h1
      obtain rfl := fn_state hx h2
      exact ihy env hp hs.2.2.2.2 _ _ _ _ h3
  | @cast ρ e s t v v' he _ ih =>
    exact fun env hp hs n e' st' er hf => cast_fails hf (fun m s y => noIdentCast he m st s _ y) (ih env hp hs)
  | number h => exact h.elim
  | nonzero h => exact h.elim

/-! ## Trees of numbers -/

/-- An expression of numbers, of limits and of the first `k` parameters. -/
def Nums (k : Nat) : Expr → Prop
  | .lit (.int _) | .lit (.float _) => True
  | .var (.arg i) => i < k
  | .var (.plain id) => (limitOf id).isSome = true
  | .un op e => (op = .plus ∨ op = .minus ∨ op = .comp ∨ op = .not) ∧ Nums k e
  | .bin l op r => pureOp op = true ∧ Nums k l ∧ Nums k r
  | .cast (.builtIn _) e => Nums k e
  | .ternary c x y => Nums k c ∧ Nums k x ∧ Nums k y
  | _ => False

theorem nums_foldUnary {C : Ctx} {k : Nat} {op : UnOp} {e z : Expr} {t : Option Ty} (hop : op = .plus ∨ op = .minus ∨ op = .comp ∨ op = .not)
    (h : Nums k e) (hf : foldUnary C op e t = .ok z) : Nums k z := by
  have hz : Nums k (zeroOf t) := by unfold zeroOf; split <;> trivial
  unfold foldUnary at hf
  split at hf
  all_goals first
    | (cases hf; trivial)
    | (cases hf; exact ⟨hop, h⟩)
    | (cases hf; done)
    | skip
  split at hf
  · cases hf; exact ⟨rfl, h, hz⟩
  · cases hf; exact ⟨.inr (.inr (.inr rfl)), h⟩

theorem nums_foldBinary {k : Nat} {op : BinOp} {l r z : Expr} (hf : foldBinary op l r = some (.ok z)) : Nums k z := by
  unfold foldBinary at hf
  split at hf
  · split at hf
    · split at hf
      · cases hf; trivial
      · cases hf
    · cases hf
  · split at hf
    · cases hf; trivial
    · cases hf
  · cases hf

theorem nums_adjust {k : Nat} (op : BinOp) {l r : Expr} (lt rt : Option Ty) (hl : Nums k l) (hr : Nums k r) :
    Nums k (adjustOperands op l r lt rt).1 ∧ Nums k (adjustOperands op l r lt rt).2.1 := by
  have hm : ∀ {x t}, maxTyCast x = some t → ∃ b, t = .builtIn b := by
    intro x t h
    unfold maxTyCast at h
    split at h
    · repeat' split at h
      all_goals first | (cases h; done) | (cases h; exact ⟨_, rfl⟩)
    · cases h
  unfold adjustOperands
  split
  · exact ⟨trivial, hr⟩
  · exact ⟨hl, trivial⟩
  · split
    · split
      · next t h => obtain ⟨b, rfl⟩ := hm h; exact ⟨hl, hr⟩
      · exact ⟨hl, hr⟩
    · exact ⟨hl, hr⟩
  · split
    · split
      · next t h => obtain ⟨b, rfl⟩ := hm h; exact ⟨hl, hr⟩
      · exact ⟨hl, hr⟩
    · exact ⟨hl, hr⟩
  · exact ⟨hl, hr⟩

/-- Finishing an expression of numbers yields one. -/
theorem nums_finish (C : Ctx) (L : Loc) (k : Nat) : ∀ n e st, Nums k e → Nums k (Expr.finish C L n e st).tree
  | 0, _, _, h => h
  | n + 1, e, st, h => by
    have ih := nums_finish C L k n
    rw [Expr.finish]
    match e, h with
    | .lit (.int i), _ => trivial
    | .lit (.float f), _ => trivial
    | .var (.arg i), h => exact h
    | .var (.plain id), h => exact h
    | .un op x, h =>
      have ix := ih x st h.2
      rw [finishStep]
      generalize Expr.finish C L n x st = R at *
      rcases R with ⟨x', s, er | t⟩
      · exact ⟨h.1, ix⟩
      · dsimp only
        cases unaryTy L op t with
        | error => exact ⟨h.1, ix⟩
        | ok τ =>
          dsimp only
          cases hz : foldUnary C op x' τ with
          | error => exact ⟨h.1, ix⟩
          | ok z => exact nums_foldUnary h.1 ix hz
    | .bin l op r, h =>
      have il := ih l st h.2.1
      rw [finishStep]
      generalize Expr.finish C L n l st = R at *
      rcases R with ⟨l', sl, er | lt⟩
      · exact ⟨h.1, il, h.2.2⟩
      · have ir := ih r sl h.2.2
        dsimp only
        generalize Expr.finish C L n r sl = R at *
        rcases R with ⟨r', sr, er | rt⟩
        · exact ⟨h.1, il, ir⟩
        · have hop := h.1
          simp only [pureOp, Bool.and_eq_true, Bool.not_eq_true', decide_eq_false_iff_not] at hop
          have hbe : binaryEffects op l' r' sr = (sr, .ok ()) := by simp [binaryEffects, hop.2, hop.1]
          have ha := nums_adjust op lt rt il ir
          dsimp only at ha ⊢
          rw [hbe]
          dsimp only
          generalize adjustOperands op l' r' lt rt = A at *
          rcases A with ⟨l2, r2, lt2, rt2⟩
          dsimp only at ha ⊢
          rw [if_neg hop.2]
          cases hz : foldBinary op l2 r2 with
          | none => exact ⟨h.1, ha⟩
          | some z =>
            cases z with
            | error => exact ⟨h.1, ha⟩
            | ok z => exact ih z sr (nums_foldBinary hz)
    | .cast (.builtIn b) x, h =>
      have ix := ih x st h
      rw [finishStep]
      simp only [Ty.finish]
      generalize Expr.finish C L n x st = R at *
      rcases R with ⟨x', s, er | t⟩
      · dsimp only at ix ⊢
        have hcp : castAsProduct (.builtIn b) x' = none := by
          unfold castAsProduct
          split
          · exact ix.elim
          · rfl
        rw [hcp]
        split
        · next h => cases h
        · exact ix
      · simp only [castAsBinary, castOfString, Bool.false_eq_true, if_false]
        exact ix
    | .ternary c x y, h =>
      have ic := ih c st h.1
      rw [finishStep]
      simp only [finishCondition]
      generalize Expr.finish C L n c st = R at *
      rcases R with ⟨c', sc, er | tc⟩
      · exact ⟨ic, h.2⟩
      · dsimp only at ic ⊢
        have key : ∀ d, Nums k d → Nums k (match Expr.finish C L n x sc with
            | ⟨t, st, .error err⟩ => (⟨.ternary d t y, st, .error err⟩ : Fin Expr)
            | ⟨t, st, .ok tt⟩ =>
              match Expr.finish C L n y st with
              | ⟨u, st, .error err⟩ => ⟨.ternary d t u, st, .error err⟩
              | ⟨u, st, .ok ut⟩ => ⟨.ternary d t u, st, .ok (joinTy tt ut)⟩).tree := by
          intro d hd
          have ix := ih x sc h.2.1
          generalize Expr.finish C L n x sc = R at *
          rcases R with ⟨x', sx, er | tx⟩
          · exact ⟨hd, ix, h.2.2⟩
          · dsimp only
            have iy := ih y sx h.2.2
            generalize Expr.finish C L n y sx = R at *
            rcases R with ⟨y', sy, er | ty⟩ <;> exact ⟨hd, ix, iy⟩
        by_cases hb : tc ≠ some (.builtIn .bool)
        · rw [if_pos hb]; exact key _ ⟨rfl, ic, trivial⟩
        · rw [if_neg hb]; exact key _ ic

/-- The code printed for an expression of numbers consists of valid tokens. -/
theorem nums_ok {C : Ctx} {L : Loc} {ps : List Str} {m : Bool} (hC : CalmCtx C) (hE : C.env.Lawful) (hL : L.argNames = ps)
    (hp : NamesOk C.env ps) : ∀ e, Nums ps.length e → toksOk C.env (e.toks ⟨C, L, m⟩) = true
  | .lit (.int i), _ => rfl
  | .lit (.float f), _ => rfl
  | .var (.arg i), h => var_ok hC hE hL hp h
  | .var (.plain id), h => by
    refine var_ok hC hE hL hp (asciiWord_word hE ?_)
    obtain ⟨b, hb⟩ := Option.isSome_iff_exists.1 (show (limitOf id).isSome = true from h)
    have := limit_cases hb
    simp only [List.mem_cons, Prod.mk.injEq, List.not_mem_nil, or_false] at this
    rcases this with ⟨rfl, _⟩ | ⟨rfl, _⟩ | ⟨rfl, _⟩ | ⟨rfl, _⟩ | ⟨rfl, _⟩ <;> decide
  | .un op x, h => by
    have ix := nums_ok (m := m) hC hE hL hp x h.2
    simp only [Expr.toks]
    rcases h.1 with rfl | rfl | rfl | rfl <;> exact toksOk_append rfl (paren_ok ix)
  | .bin l op r, h => by
    have il := nums_ok (m := m) hC hE hL hp l h.2.1
    have ir := nums_ok (m := m) hC hE hL hp r h.2.2
    have hop := h.1
    simp only [pureOp, Bool.and_eq_true, Bool.not_eq_true', decide_eq_false_iff_not] at hop
    simp only [Expr.toks]
    unfold binaryToks
    split
    · rename_i h; have := hop.1; cases op <;> simp_all [BinOp.isBlockAssign, BinOp.isAssignment]
    · exact toksOk_append (toksOk_append (paren_ok il) rfl) (paren_ok ir)
  | .cast (.builtIn b) x, h => cast_ok hC hE hL hp trivial (nums_ok hC hE hL hp x h)
  | .ternary c x y, h => by
    have ic := nums_ok (m := m) hC hE hL hp c h.1
    have ix := nums_ok (m := m) hC hE hL hp x h.2.1
    have iy := nums_ok (m := m) hC hE hL hp y h.2.2
    simp only [Expr.toks]
    toks_ok hE

theorem fn_nums {wrap mixed : Prop} {ρ : Nat → Option (IntTy × Int)} {k : Nat} {e : Expr} {o : Outcome} (h : FnValue W wrap mixed ρ e o) :
    (∀ i p, ρ i = some p → i < k) → Nums k e := by
  have sub : ∀ {ρ ρ' : Nat → Option (IntTy × Int)}, SameTypes ρ ρ' → (∀ i p, ρ i = some p → i < k) → ∀ i p, ρ' i = some p → i < k :=
    fun hs h i p hp => by obtain ⟨q, hq, _⟩ := sameTypes_some hs hp; exact h i q hq
  have tc : ∀ {e t v}, TypedValue W wrap e t v → Nums k e := by
    intro e t v h
    induction h with
    | lit => trivial
    | plus _ ih => exact ⟨.inl rfl, ih⟩
    | neg _ _ ih => exact ⟨.inr (.inl rfl), ih⟩
    | bin hop _ _ _ _ _ _ ihl ihr => exact ⟨(arith_pure (by rw [hop]; rfl)).1, ihl, ihr⟩
    | shl _ _ _ _ _ ihl ihr => exact ⟨rfl, ihl, ihr⟩
    | shr _ _ _ _ ihl ihr => exact ⟨rfl, ihl, ihr⟩
  induction h with
  | const h => exact fun _ => tc h
  | param hi => exact fun h => h _ _ hi
  | limit hl => exact fun _ => by show (limitOf _).isSome = true; rw [hl]; rfl
  | neg _ _ _ _ ih => exact fun h => ⟨.inr (.inl rfl), ih h⟩
  | comp _ _ ih => exact fun h => ⟨.inr (.inr (.inl rfl)), ih h⟩
  | not _ ih => exact fun h => ⟨.inr (.inr (.inr rfl)), ih h⟩
  | widened hop hl _ hr =>
    exact fun _ => ⟨by rcases hop with rfl | rfl <;> rfl, by show (limitOf _).isSome = true; rw [hl]; rfl, tc hr⟩
  | bin hop _ _ _ _ _ _ _ _ _ _ ihl ihr => exact fun h => ⟨(arith_pure (by rw [hop]; rfl)).1, ihl h, ihr h⟩
  | shl _ _ _ _ _ _ _ ihl ihr => exact fun h => ⟨rfl, ihl h, ihr h⟩
  | shr _ _ _ _ _ _ ihl ihr => exact fun h => ⟨rfl, ihl h, ihr h⟩
  | cmp hop _ _ _ _ _ ihl ihr => exact fun h => ⟨(cmp_pure hop).1, ihl h, ihr h⟩
  | andFalse _ hs _ ihl ihr | orTrue _ hs _ ihl ihr => exact fun h => ⟨rfl, ihl h, ihr (sub hs h)⟩
  | andTrue _ _ ihl ihr | orFalse _ _ ihl ihr => exact fun h => ⟨rfl, ihl h, ihr h⟩
  | condTrue _ _ _ _ hs _ _ _ ihc ihx ihy => exact fun h => ⟨ihc h, ihx h, ihy (sub hs h)⟩
  | condFalse _ _ _ hs _ _ _ _ ihc ihx ihy => exact fun h => ⟨ihc h, ihx (sub hs h), ihy h⟩
  | cast _ _ ih => exact fun h => ih h
  | number _ _ ih => exact ih
  | nonzero _ _ ih => exact ih

/-! ## The type of a constant -/

/-- The type that code generation finds. -/
def outTy : Outcome → Ty
  | .int t _ => .builtIn t.cType
  | .truth _ => .builtIn .bool

theorem joinTy_self (t : Option Ty) : joinTy t t = t := by simp [joinTy]

theorem joinTy_none (t : Option Ty) : joinTy t none = t ∧ joinTy none t = t := by
  cases t <;> simp [joinTy]

/-- The types of two operands, of which one may be constant. -/
theorem join_two {s t : IntTy} {l r : Expr} {lt rt : Option Ty} (hc : (constant l && constant r) = false)
    (hl : (constant l = true ∧ lt = none) ∨ (constant l = false ∧ lt = some (.builtIn s.cType)))
    (hr : (constant r = true ∧ rt = none) ∨ (constant r = false ∧ rt = some (.builtIn t.cType)))
    (h : (s = t ∧ s.promote W = s) ∨ constant l = true ∧ common W s t = t ∨ constant r = true ∧ common W s t = s) :
    joinTy lt rt = some (.builtIn (common W s t).cType) := by
  rcases hl with ⟨cl, rfl⟩ | ⟨cl, rfl⟩ <;> rcases hr with ⟨cr, rfl⟩ | ⟨cr, rfl⟩
  · rw [cl, cr] at hc; cases hc
  · rcases h with ⟨rfl, h⟩ | ⟨_, h⟩ | ⟨h, _⟩
    · rw [common_self h]; rfl
    · rw [h]; rfl
    · rw [cr] at h; cases h
  · rcases h with ⟨rfl, h⟩ | ⟨h, _⟩ | ⟨_, h⟩
    · rw [common_self h]; rfl
    · rw [cl] at h; cases h
    · rw [h]; rfl
  · rcases h with ⟨rfl, h⟩ | ⟨h, _⟩ | ⟨h, _⟩
    · rw [common_self h, joinTy_self]
    · rw [cl] at h; cases h
    · rw [cr] at h; cases h

/-- The parameters have the types of the values. -/
def TypedArgs (P : PCtx) (st : LState) (ρ : Nat → Option (IntTy × Int)) : Prop :=
  (∃ env, Link P st ρ env) ∧ ∀ i t v, ρ i = some (t, v) → st.argTy i = some (.known (.builtIn t.cType))

/-- The type of an expression is the one C gives it. -/
theorem fn_type {P : PCtx} {L : Loc} {st : LState} {ρ : Nat → Option (IntTy × Int)}
    {e : Expr} {o : Outcome} (h : FnValue W False False ρ e o) : TypedArgs P st ρ → Separated e → constant e = false → ∀ n e' st' ty,
    Expr.finish P.C L n e st = ⟨e', st', .ok ty⟩ → ty = some (outTy o) := by
  have sub : ∀ {ρ ρ' : Nat → Option (IntTy × Int)}, SameTypes ρ ρ' → TypedArgs P st ρ → TypedArgs P st ρ' := by
    intro ρ ρ' hs ⟨⟨env, hl⟩, h⟩
    obtain ⟨env', _, hl'⟩ := hl.other hs
    refine ⟨⟨env', hl'⟩, fun i t v hi => ?_⟩
    obtain ⟨⟨t', v'⟩, hq, rfl⟩ := sameTypes_some hs hi
    exact h i _ _ hq
  have link : ∀ {ρ : Nat → Option (IntTy × Int)} (h : TypedArgs P st ρ), Link P st ρ h.1.choose := fun h => h.1.choose_spec
  have opd : ∀ {ρ : Nat → Option (IntTy × Int)} {e e' : Expr} {t : IntTy} {v : Int} {n st' ty}, FnValue W False False ρ e (.int t v) →
      TypedArgs P st ρ → Separated e → Expr.finish P.C L n e st = ⟨e', st', .ok ty⟩ →
      (constant e = false → ty = some (outTy (.int t v))) →
      ((constant e = true ∧ ty = none) ∨ (constant e = false ∧ ty = some (.builtIn t.cType))) := by
    intro ρ e e' t v n st' ty h hρ hs hf ih
    rcases operand (P := P) h hf (fn_finish h _ n e' st' ty (link hρ) hf hs) with ⟨h1, h2, _⟩ | ⟨h1, _⟩
    · exact .inl ⟨h1, h2⟩
    · exact .inr ⟨h1, ih h1⟩
  induction h with
  | const h => intro _ _ hc; rw [typed_constant h] at hc; cases hc
  | @param ρ i t v hi =>
    intro hρ _ _ n e' st' ty hf
    cases n with
    | zero => cases hf
    | succ n =>
      rw [Expr.finish, finishStep] at hf
      have : finishVar P.C (.arg i) st = (st, .ok (some (.builtIn t.cType))) := by
        simp [finishVar, IdentExpr.finish, hρ.2 i t v hi]
      rw [this] at hf
      injection hf with _ _ h
      injection h with h
      exact h.symm
  | @limit ρ id t hl hpr =>
    intro hρ _ _ n e' st' ty hf
    cases n with
    | zero => cases hf
    | succ n =>
      rw [Expr.finish, finishStep, limit_finish hl] at hf
      injection hf with _ _ h
      injection h with h
      rw [outTy, hpr.resolve_left fun h => h]
      exact h.symm
  | @neg ρ e t v v' hc he hu hw ih =>
    intro hρ hs _ n e' st' ty hf
    cases n with
    | zero => cases hf
    | succ n =>
      rw [Expr.finish, finishStep] at hf
      cases hx : Expr.finish P.C L n e st with
      | mk x sx rx =>
        rw [hx] at hf
        cases rx with
        | error => cases hf
        | ok tx =>
          dsimp only [unaryTy] at hf
          split at hf
          · cases hf
          · injection hf with _ _ h
            injection h with h
            rw [← h, ih hρ hs.2 hc n x sx tx hx, outTy, outTy, (hu.resolve_left id).2]
  | @comp ρ e t v he hpr ih =>
    intro hρ hs _ n e' st' ty hf
    obtain ⟨hc, hpr⟩ := hpr.resolve_left id
    cases n with
    | zero => cases hf
    | succ n =>
      rw [Expr.finish, finishStep] at hf
      cases hx : Expr.finish P.C L n e st with
      | mk x sx rx =>
        rw [hx] at hf
        cases rx with
        | error => cases hf
        | ok tx =>
          dsimp only [unaryTy] at hf
          split at hf
          · cases hf
          · injection hf with _ _ h
            injection h with h
            rw [← h, ih hρ hs.2 hc n x sx tx hx, outTy, outTy, hpr]
  | @bin ρ l r op s t a b a' b' v v' hop hc hl hr hm ha' hb' hv hq hv' hlim ihl ihr =>
    intro hρ hs _ n e' st' ty hf
    obtain ⟨m, l', r', sl, sr, lt, rt, h1, h2, h3⟩ := finish_bin (arith_pure (by rw [hop]; rfl)).1 hf
    rw [Separated] at hs
    have hcc : (constant l && constant r) = false := by simpa [constant, hop] using hc
    obtain rfl := fn_state hl h1
    have kl := operand (P := P) hl h1 (fn_finish hl _ m l' _ lt (link hρ) h1 hs.2.2.2.1)
    have kr := operand (P := P) hr h2 (fn_finish hr _ m r' _ rt (link hρ) h2 hs.2.2.2.2)
    have hun := unfolded (op := op) hcc (hlim.resolve_left id) kl kr
    rw [(h3 hun.1 hun.2).2, (arith_pure (by rw [hop]; rfl)).2, if_neg (by decide)]
    exact join_two hcc (opd hl hρ hs.2.2.2.1 h1 fun h => ihl hρ hs.2.2.2.1 h _ _ _ _ h1)
      (opd hr hρ hs.2.2.2.2 h2 fun h => ihr hρ hs.2.2.2.2 h _ _ _ _ h2) (hm.resolve_left id)
  | widened hop hl _ hr =>
    intro hρ hs _ n e' st' ty hf
    obtain ⟨_, _, _, _, h⟩ := widened_finish hop hl hr hf
    exact h
  | @shl ρ l r s t a v' k hc hl hr hm _ _ _ ihl ihr | @shr ρ l r s t a k hc hl hr hm _ _ ihl ihr =>
    intro hρ hs _ n e' st' ty hf
    obtain ⟨m, l', r', sl, sr, lt, rt, h1, h2, h3⟩ := finish_bin rfl hf
    rw [Separated] at hs
    obtain ⟨cl, hm, hpr⟩ := hm.resolve_left id
    obtain rfl := fn_state hl h1
    have kl := operand (P := P) hl h1 (fn_finish hl _ m l' _ lt (link hρ) h1 hs.2.2.2.1)
    have kr := operand (P := P) hr h2 (fn_finish hr _ m r' _ rt (link hρ) h2 hs.2.2.2.2)
    have hun := fun (op : BinOp) (ho : op ≠ .mul ∧ op ≠ .add) => unfolded (op := op) (by rw [cl]; rfl) (fun h => absurd h (by simp [ho])) kl kr
    rw [(h3 (hun _ (by decide)).1 (hun _ (by decide)).2).2, outTy, hpr]
    have il := ihl hρ hs.2.2.2.1 cl _ _ _ _ h1
    rcases opd hr hρ hs.2.2.2.2 h2 fun h => ihr hρ hs.2.2.2.2 h _ _ _ _ h2 with ⟨cr, rfl⟩ | ⟨cr, rfl⟩
    · rw [il]; rfl
    · rcases hm with rfl | h
      · rw [il]; exact joinTy_self _
      · rw [cr] at h; cases h
  | @cmp ρ l r op f s t a b a' b' hop hl hr hm _ _ ihl ihr =>
    intro hρ hs _ n e' st' ty hf
    obtain ⟨m, l', r', sl, sr, lt, rt, h1, h2, h3⟩ := finish_bin (cmp_pure hop).1 hf
    rw [Separated] at hs
    obtain rfl := fn_state hl h1
    have kl := operand (P := P) hl h1 (fn_finish hl _ m l' _ lt (link hρ) h1 hs.2.2.2.1)
    have kr := operand (P := P) hr h2 (fn_finish hr _ m r' _ rt (link hρ) h2 hs.2.2.2.2)
    have hun := unfolded (op := op) (hm.resolve_left id).1 (by rintro (rfl | rfl) <;> cases hop) kl kr
    rw [(h3 hun.1 hun.2).2, (cmp_pure hop).2]
    rfl
  | @not ρ e b he ih =>
    intro hρ hs _ n e' st' ty hf
    cases n with
    | zero => cases hf
    | succ n =>
      rw [Expr.finish, finishStep] at hf
      cases hx : Expr.finish P.C L n e st with
      | mk x sx rx =>
        rw [hx] at hf
        cases rx with
        | error => cases hf
        | ok tx =>
          dsimp only [unaryTy] at hf
          split at hf
          · cases hf
          · injection hf with _ _ h
            injection h with h
            rw [← h]; rfl
  | @andFalse ρ ρ' l r b hl hst hr ihl ihr =>
    intro hρ hs _ n e' st' ty hf
    exact (show Kept W P hρ.1.choose _ e' ty (.truth _) from
      fn_finish (.andFalse hl hst hr) _ n e' st' ty (link hρ) hf hs).ty
  | @orTrue ρ ρ' l r b hl hst hr ihl ihr =>
    intro hρ hs _ n e' st' ty hf
    exact (show Kept W P hρ.1.choose _ e' ty (.truth _) from
      fn_finish (.orTrue hl hst hr) _ n e' st' ty (link hρ) hf hs).ty
  | @andTrue ρ l r b hl hr ihl ihr =>
    intro hρ hs _ n e' st' ty hf
    exact (show Kept W P hρ.1.choose _ e' ty (.truth _) from
      fn_finish (.andTrue hl hr) _ n e' st' ty (link hρ) hf hs).ty
  | @orFalse ρ l r b hl hr ihl ihr =>
    intro hρ hs _ n e' st' ty hf
    exact (show Kept W P hρ.1.choose _ e' ty (.truth _) from
      fn_finish (.orFalse hl hr) _ n e' st' ty (link hρ) hf hs).ty
  | @condTrue ρ ρ' c x y o s t v w v' hc hco hmet hx hst hy hm hw ihc ihx ihy =>
    intro hρ hs _ n e' st' ty hf
    obtain ⟨m, c', x', y', sc, sx, sy, tc, tx, ty', h1, h2, h3, rfl, rfl, rfl⟩ := finish_ternary hf
    obtain rfl := fn_state hco h1
    obtain rfl := fn_state hx h2
    rw [Separated] at hs
    obtain ⟨hcc, hm⟩ := hm.resolve_left id
    exact join_two hcc (opd hx hρ hs.2.2.2.1 h2 fun h => ihx hρ hs.2.2.2.1 h _ _ _ _ h2)
      (opd hy (sub hst hρ) hs.2.2.2.2 h3 fun h => ihy (sub hst hρ) hs.2.2.2.2 h _ _ _ _ h3)
      (hm.imp_right (.imp_right fun h => ⟨h.1, h.2.1⟩))
  | @condFalse ρ ρ' c x y o s t v w w' hc hco hmet hst hx hy hm hw ihc ihx ihy =>
    intro hρ hs _ n e' st' ty hf
    obtain ⟨m, c', x', y', sc, sx, sy, tc, tx, ty', h1, h2, h3, rfl, rfl, rfl⟩ := finish_ternary hf
    obtain rfl := fn_state hco h1
    obtain rfl := fn_state hx h2
    rw [Separated] at hs
    obtain ⟨hcc, hm⟩ := hm.resolve_left id
    exact join_two hcc (opd hx (sub hst hρ) hs.2.2.2.1 h2 fun h => ihx (sub hst hρ) hs.2.2.2.1 h _ _ _ _ h2)
      (opd hy hρ hs.2.2.2.2 h3 fun h => ihy hρ hs.2.2.2.2 h _ _ _ _ h3)
      (hm.imp_right (.imp_left fun h => ⟨h.1, h.2.1⟩))
  | @cast ρ e s t v v' he hw ih =>
    intro hρ hs _ n e' st' ty hf
    cases n with
    | zero => cases hf
    | succ n =>
      rw [Expr.finish, finishStep] at hf
      simp only [Ty.finish] at hf
      cases hx : Expr.finish P.C L n e st with
      | mk x sx rx =>
        rw [hx] at hf
        cases rx with
        | error er =>
          dsimp only at hf
          have hni := noIdentCast (C := P.C) (L := L) he n st
          rw [hx] at hni
          have hcp : castAsProduct (.builtIn t.cType) x = none := by
            unfold castAsProduct
            split
            · exact absurd rfl (hni _ _ _)
            · rfl
          rw [hcp] at hf
          split at hf
          · next h => cases h
          · cases hf
        | ok tx =>
          dsimp only at hf
          simp only [castAsBinary, castOfString, Bool.false_eq_true, if_false] at hf
          injection hf with _ _ h
          injection h with h
          exact h.symm
  | number h => exact h.elim
  | nonzero h => exact h.elim

/-- The type of an expression without parameters is the one C gives it. -/
theorem cast_type {P : PCtx} {L : Loc} {st : LState} {ρ : Nat → Option (IntTy × Int)}
    {e : Expr} {o : Outcome} (h : FnValue W False False ρ e o) (hρ : ∀ i, ρ i = none) (hr : Rooted P.C.ffiPrefix) : Separated e → constant e = false → ∀ n e' st' ty,
    Expr.finish P.C L n e st = ⟨e', st', .ok ty⟩ → ty = some (outTy o) :=
  fn_type h ⟨⟨fun _ => none, fun i t v hi => by rw [hρ] at hi; (cases hi), fun i x p hi => by rw [hρ] at hi; (cases hi),
    fun i j x p q hi => by rw [hρ] at hi; (cases hi), hr, fun i p hi => by rw [hρ] at hi; (cases hi)⟩, fun i t v hi => by rw [hρ] at hi; (cases hi)⟩

end CMacro
