import Verif.Proofs.FinishFuel

/-!
# `finish` terminates

`finish` calls itself on rewritten trees, so the recursion is not structural.  The rewritings
remove an ambiguous prefix operator or a string concatenation, and no step ever adds one.
-/

namespace CMacro

mutual
/-- A weighted count of the ambiguous prefix operators and the string concatenations. -/
def Expr.cnt (a b : Nat) : Expr → Nat
  | .var _ | .lit _ | .stringify _ | .sizeOf _ => 0
  | .call _ as => Expr.cntL a b as
  | .cast _ e => e.cnt a b
  | .concatStr ps => b + Expr.cntL a b ps
  | .un op e => (if op.asBinary.isSome then a else 0) + e.cnt a b
  | .bin l _ r => l.cnt a b + r.cnt a b
  | .ternary c t f => c.cnt a b + t.cnt a b + f.cnt a b
/-- The count for lists. -/
def Expr.cntL (a b : Nat) : List Expr → Nat
  | [] => 0
  | e :: es => e.cnt a b + Expr.cntL a b es
end

mutual
/-- Number of nodes. -/
def Expr.size : Expr → Nat
  | .var _ | .lit _ | .stringify _ | .sizeOf _ => 1
  | .call _ as => 1 + Expr.sizeL as
  | .cast _ e => 1 + e.size
  | .concatStr ps => 1 + Expr.sizeL ps
  | .un _ e => 1 + e.size
  | .bin l _ r => 1 + l.size + r.size
  | .ternary c t f => 1 + c.size + t.size + f.size
/-- Number of nodes of a list. -/
def Expr.sizeL : List Expr → Nat
  | [] => 0
  | e :: es => 1 + e.size + Expr.sizeL es
end

theorem Expr.cntL_append (a b : Nat) (l r : List Expr) :
    Expr.cntL a b (l ++ r) = Expr.cntL a b l + Expr.cntL a b r := by
  induction l with
  | nil => simp [Expr.cntL]
  | cons e l ih => simp [Expr.cntL, ih]; omega

theorem cntL_flush (a b : Nat) (c : Option (List UInt8)) : Expr.cntL a b (flush c) = 0 := by
  cases c <;> simp [flush, Expr.cntL, Expr.cnt]

theorem Expr.size_pos (e : Expr) : 0 < e.size := by
  cases e <;> simp [Expr.size] <;> omega

theorem Expr.mem_le {a b : Nat} {e : Expr} : ∀ {es : List Expr}, e ∈ es → e.cnt a b ≤ Expr.cntL a b es
  | x :: es, h => by
    rcases List.mem_cons.1 h with rfl | h
    · simp [Expr.cntL]
    · have := Expr.mem_le (a := a) (b := b) h
      simp [Expr.cntL]; omega

theorem Expr.mem_size {e : Expr} : ∀ {es : List Expr}, e ∈ es → e.size ≤ Expr.sizeL es
  | x :: es, h => by
    rcases List.mem_cons.1 h with rfl | h
    · simp [Expr.sizeL]; omega
    · have := Expr.mem_size h
      simp [Expr.sizeL]; omega

/-! ## No step adds to the count -/

section
variable {a b : Nat}

/-- The count does not grow. -/
def NoGrow (a b : Nat) (f : Expr → LState → Fin Expr) : Prop := ∀ e st, (f e st).tree.cnt a b ≤ e.cnt a b

theorem finishArgs_cnt {f : Expr → LState → Fin Expr} (h : NoGrow a b f) :
    ∀ es st, Expr.cntL a b (finishArgs f es st).1 ≤ Expr.cntL a b es
  | [], st => by simp [finishArgs]
  | e :: es, st => by
    have he := h e st
    simp only [finishArgs]
    generalize f e st = R at *
    rcases R with ⟨x, s, r | r⟩
    · simp [Expr.cntL] at he ⊢; exact he
    · have := finishArgs_cnt h es s
      simp [Expr.cntL] at he ⊢; omega

theorem finishParts_cnt {f : Expr → LState → Fin Expr} (h : NoGrow a b f) :
    ∀ es cur st, Expr.cntL a b (finishParts f es cur st).1 ≤ Expr.cntL a b es ∧
      ∀ new, (finishParts f es cur st).2.2 = .ok new → Expr.cntL a b new ≤ Expr.cntL a b es
  | [], cur, st => by
    simp only [finishParts]
    refine ⟨by simp, ?_⟩
    intro new hn
    cases hn
    simp [cntL_flush]
  | e :: es, cur, st => by
    have he := h e st
    simp only [finishParts]
    generalize f e st = R at *
    rcases R with ⟨x, s, r | r⟩
    · refine ⟨by simp [Expr.cntL] at he ⊢; exact he, ?_⟩
      intro new hn; simp at hn
    · simp only at he ⊢
      split
      · split
        · refine ⟨by simp [Expr.cntL]; exact he, ?_⟩
          intro new hn; simp at hn
        · rename_i bs _
          have ih := finishParts_cnt h es (some (cur.getD [] ++ bs)) s
          generalize finishParts f es (some (cur.getD [] ++ bs)) s = R at *
          rcases R with ⟨p, s', r⟩
          simp only [Expr.cntL] at ih ⊢
          refine ⟨by omega, ?_⟩
          intro new hn
          have := ih.2 new hn
          omega
      · split
        · refine ⟨by simp [Expr.cntL] at he ⊢; exact he, ?_⟩
          intro new hn; simp at hn
        · have ih := finishParts_cnt h es none s
          generalize finishParts f es none s = R at *
          rcases R with ⟨p, s', r | r⟩
          · simp only [Expr.cntL] at ih ⊢
            refine ⟨by omega, ?_⟩
            intro new hn; simp at hn
          · simp only [Expr.cntL] at ih ⊢
            refine ⟨by omega, ?_⟩
            intro new hn
            have := ih.2 r rfl
            cases hn
            simp only [Expr.cntL_append, cntL_flush, Expr.cntL]
            omega

theorem finishCondition_cnt {f : Expr → LState → Fin Expr} (h : NoGrow a b f) :
    NoGrow a b (finishCondition f) := by
  intro e st
  have he := h e st
  simp only [finishCondition]
  generalize f e st = R at *
  rcases R with ⟨x, s, r | r⟩
  · exact he
  · simp only
    split
    · simp [Expr.cnt] at he ⊢; exact he
    · exact he

theorem castAsProduct_cnt {ty : Ty} {x e : Expr} (h : castAsProduct ty x = some e) :
    e.cnt a b + a ≤ x.cnt a b := by
  unfold castAsProduct at h
  split at h
  · split at h
    · cases h
      simp [Expr.cnt, UnOp.asBinary]; omega
    · cases h
  · cases h

theorem castAsBinary_cnt {C : Ctx} {ty : Ty} {x e : Expr} (h : castAsBinary C ty x = some e) :
    e.cnt a b + a ≤ x.cnt a b := by
  unfold castAsBinary at h
  split at h
  · rename_i op y
    split at h
    · rcases ho : op.asBinary with _ | o
      · simp [ho] at h
      · simp only [ho, Option.map_some, Option.some.injEq] at h
        subst h
        simp [Expr.cnt, ho]; omega
    · cases h
  · cases h

theorem foldUnary_cnt {C : Ctx} {op : UnOp} {x : Expr} {t : Option Ty} {e : Expr}
    (h : foldUnary C op x t = .ok e) : e.cnt a b ≤ (Expr.un op x).cnt a b := by
  unfold foldUnary at h
  split at h <;> first | (cases h; done) | (cases h; simp [Expr.cnt]; done) | skip
  · split at h
    · cases h
      have : (zeroOf t).cnt a b = 0 := by
        unfold zeroOf; split <;> rfl
      simp [Expr.cnt, this]
    · cases h
      simp [Expr.cnt]

theorem adjustOperands_cnt (op : BinOp) (l r : Expr) (lt rt : Option Ty) :
    (adjustOperands op l r lt rt).1.cnt a b = l.cnt a b ∧
    (adjustOperands op l r lt rt).2.1.cnt a b = r.cnt a b := by
  unfold adjustOperands
  split
  · simp [Expr.cnt]
  · simp [Expr.cnt]
  · split
    · split <;> simp [Expr.cnt]
    · simp
  · split
    · split <;> simp [Expr.cnt]
    · simp
  · simp

theorem foldBinary_lit {op : BinOp} {l r e : Expr} (h : foldBinary op l r = some (.ok e)) :
    ∃ x, e = .lit x ∧ ∀ c, x ≠ .char c := by
  unfold foldBinary at h
  split at h
  · split at h
    · split at h
      · cases h; exact ⟨_, rfl, by simp⟩
      · cases h
    · cases h
  · split at h
    · cases h; exact ⟨_, rfl, by simp⟩
    · cases h
  · cases h

theorem castOfString_lit {ty : Ty} {x : Expr} (h : castOfString ty x = true) : ∃ bs, x = .lit (.string (.ordinary bs)) := by
  unfold castOfString at h
  split at h
  · exact ⟨_, rfl⟩
  · cases h

theorem finishStep_cnt {f : Expr → LState → Fin Expr} (h : NoGrow a b f) (C : Ctx) (L : Loc) :
    NoGrow a b (finishStep C L f) := by
  intro e st
  cases e with
  | var n => exact Nat.le_refl _
  | stringify n => exact Nat.le_refl _
  | sizeOf n =>
    simp only [finishStep]
    rcases n.finish C st with ⟨ty, st, r | r⟩ <;> exact Nat.le_refl _
  | lit l =>
    cases l <;> try exact Nat.le_refl _
    simp only [finishStep]
    split <;> exact Nat.le_refl _
  | cast ty x =>
    simp only [finishStep]
    rcases ty.finish C st with ⟨ty, st, r | r⟩
    · simp only
      split
      · rename_i e _ hc
        have := castAsProduct_cnt (a := a) (b := b) hc
        have := h e st
        simp only [Expr.cnt]; omega
      · simp [Expr.cnt]
    · simp only
      have hx := h x st
      generalize f x st = R at *
      rcases R with ⟨x', s, r | r⟩
      · simp only at hx ⊢
        split
        · rename_i e _ hc
          have := castAsProduct_cnt (a := a) (b := b) hc
          have := h e s
          simp only [Expr.cnt]; omega
        · simp [Expr.cnt, hx]
      · simp only at hx ⊢
        split
        · rename_i e hc
          have := castAsBinary_cnt (a := a) (b := b) hc
          have := h e s
          simp only [Expr.cnt]; omega
        · split
          · have := h x' s
            simp only [Expr.cnt]; omega
          · simp [Expr.cnt, hx]
  | call name args =>
    simp only [finishStep]
    split
    · exact Nat.le_refl _
    · rcases name.finish st with ⟨st, r | r⟩
      · exact Nat.le_refl _
      · simp only
        have := finishArgs_cnt h args st
        generalize finishArgs f args st = R at *
        rcases R with ⟨x, y, z | z⟩ <;> simpa [Expr.cnt] using this
  | concatStr parts =>
    simp only [finishStep]
    have := finishParts_cnt h parts none st
    generalize finishParts f parts none st = R at *
    rcases R with ⟨x, y, z | z⟩
    · simp [Expr.cnt, this.1]
    · have h2 := this.2 z rfl
      rcases z with _ | ⟨p, _ | ⟨q, l⟩⟩
      · simp [Expr.cnt, Expr.cntL]
      · have := h p y
        simp [Expr.cnt, Expr.cntL] at h2 ⊢; omega
      · simp [Expr.cnt, Expr.cntL] at h2 ⊢; omega
  | un op x =>
    simp only [finishStep]
    have hx := h x st
    generalize f x st = R at *
    rcases R with ⟨x', s, r | r⟩
    · simp [Expr.cnt] at hx ⊢; omega
    · simp only at hx ⊢
      split
      · simp [Expr.cnt] at hx ⊢; omega
      · split
        · simp [Expr.cnt] at hx ⊢; omega
        · rename_i he
          have := foldUnary_cnt (a := a) (b := b) he
          simp only [Expr.cnt] at this ⊢; omega
  | bin l op r =>
    simp only [finishStep]
    have hl := h l st
    generalize f l st = R at *
    rcases R with ⟨l', s, lt | lt⟩
    · simp [Expr.cnt] at hl ⊢; omega
    · simp only at hl ⊢
      have hr := h r s
      generalize f r s = R at *
      rcases R with ⟨r', s, rt | rt⟩
      · simp [Expr.cnt] at hr ⊢; omega
      · simp only at hr ⊢
        rcases binaryEffects op l' r' s with ⟨s, x | x⟩
        · simp [Expr.cnt]; omega
        · simp only
          have ha := adjustOperands_cnt (a := a) (b := b) op l' r' lt rt
          generalize adjustOperands op l' r' lt rt = R at *
          rcases R with ⟨l2, r2, lt2, rt2⟩
          simp only at ha ⊢
          split
          · simp [Expr.cnt]; omega
          · split
            · simp [Expr.cnt]; omega
            · rename_i e hb
              obtain ⟨x, rfl, _⟩ := foldBinary_lit hb
              have := h (.lit x) s
              simp [Expr.cnt] at this ⊢; omega
            · simp [Expr.cnt]; omega
  | ternary c t u =>
    simp only [finishStep]
    have hc := finishCondition_cnt h c st
    generalize finishCondition f c st = R at *
    rcases R with ⟨c', s, x | x⟩
    · simp [Expr.cnt] at hc ⊢; omega
    · simp only at hc ⊢
      have ht := h t s
      generalize f t s = R at *
      rcases R with ⟨t', s, x | x⟩
      · simp [Expr.cnt] at ht ⊢; omega
      · simp only at ht ⊢
        have hu := h u s
        generalize f u s = R at *
        rcases R with ⟨u', s, x | x⟩ <;> (simp [Expr.cnt] at hu ⊢; omega)

theorem Expr.finish_cnt (C : Ctx) (L : Loc) : ∀ n, NoGrow a b (Expr.finish C L n)
  | 0 => fun e _ => Nat.le_refl _
  | n + 1 => finishStep_cnt (Expr.finish_cnt C L n) C L

end

/-! ## Termination -/

/-- With a large enough bound the result is `r`. -/
def Ev (C : Ctx) (L : Loc) (e : Expr) (st : LState) (r : Fin Expr) : Prop :=
  r.res ≠ .error .diverge ∧ ∃ N, ∀ n ≥ N, Expr.finish C L n e st = r

theorem Ev.cnt {C : Ctx} {L : Loc} {e : Expr} {st : LState} {r : Fin Expr} (h : Ev C L e st r) (a b : Nat) :
    r.tree.cnt a b ≤ e.cnt a b := by
  obtain ⟨_, N, hN⟩ := h
  have := Expr.finish_cnt (a := a) (b := b) C L N e st
  rwa [hN N (Nat.le_refl _)] at this

/-- A step that is eventually `r`. -/
theorem Ev.step {C : Ctx} {L : Loc} {e : Expr} {st : LState} {r : Fin Expr} (hr : r.res ≠ .error .diverge) (N : Nat)
    (h : ∀ n ≥ N, finishStep C L (Expr.finish C L n) e st = r) : Ev C L e st r :=
  ⟨hr, N + 1, fun n hn => by
    obtain ⟨m, rfl⟩ : ∃ m, n = m + 1 := ⟨n - 1, by omega⟩
    exact h m (by omega)⟩

/-- A step that is eventually another call. -/
theorem Ev.step' {C : Ctx} {L : Loc} {e e' : Expr} {st st' : LState} {r : Fin Expr} (hr : Ev C L e' st' r) (N : Nat)
    (h : ∀ n ≥ N, finishStep C L (Expr.finish C L n) e st = Expr.finish C L n e' st') : Ev C L e st r := by
  obtain ⟨hd, M, hM⟩ := hr
  exact .step hd (max N M) fun n hn => by rw [h n (by omega), hM n (by omega)]

/-- `finish` terminates on `e`. -/
def Ends (C : Ctx) (L : Loc) (e : Expr) : Prop := ∀ st, ∃ r, Ev C L e st r

theorem finishArgs_ends {C : Ctx} {L : Loc} : ∀ (es : List Expr), (∀ e ∈ es, Ends C L e) → ∀ st,
    ∃ r N, r.2.2 ≠ .error .diverge ∧ ∀ n ≥ N, finishArgs (Expr.finish C L n) es st = r
  | [], _, st => ⟨([], st, .ok ()), 0, by simp, fun n _ => rfl⟩
  | e :: es, h, st => by
    obtain ⟨r, hd, N, hN⟩ := h e (by simp) st
    rcases r with ⟨x, s, r | r⟩
    · exact ⟨(x :: es, s, .error r), N, by simpa using hd, fun n hn => by simp [finishArgs, hN n hn]⟩
    · obtain ⟨r', M, hd', hM⟩ := finishArgs_ends es (fun e he => h e (by simp [he])) s
      exact ⟨(x :: r'.1, r'.2.1, r'.2.2), max N M, hd', fun n hn => by
        simp only [finishArgs, hN n (by omega), hM n (by omega)]⟩

theorem finishParts_ends {C : Ctx} {L : Loc} : ∀ (es : List Expr), (∀ e ∈ es, Ends C L e) → ∀ cur st,
    ∃ r N, r.2.2 ≠ .error .diverge ∧ ∀ n ≥ N, finishParts (Expr.finish C L n) es cur st = r
  | [], _, cur, st => ⟨([], st, .ok (flush cur)), 0, by simp, fun n _ => rfl⟩
  | e :: es, h, cur, st => by
    obtain ⟨r, hd, N, hN⟩ := h e (by simp) st
    rcases r with ⟨x, s, r | r⟩
    · exact ⟨(x :: es, s, .error r), N, by simpa using hd, fun n hn => by simp [finishParts, hN n hn]⟩
    · have hes : ∀ e ∈ es, Ends C L e := fun e he => h e (by simp [he])
      obtain ⟨r', M, hd', hM⟩ := finishParts_ends es hes none s
      have other : (∀ l, x ≠ .lit (.string l)) →
          ∃ r N, r.2.2 ≠ .error .diverge ∧ ∀ n ≥ N, finishParts (Expr.finish C L n) (e :: es) cur st = r := by
        intro hx
        by_cases hb : badPart x
        · refine ⟨(x :: es, s, .error (unsupported c!"concatenation of variables")), N, by simp [unsupported], fun n hn => ?_⟩
          simp only [finishParts, hN n hn]
          rw [if_pos hb]
        · rcases r' with ⟨p, s', z | z⟩
          · refine ⟨(x :: p, s', .error z), max N M, hd', fun n hn => ?_⟩
            simp only [finishParts, hN n (by omega), hM n (by omega)]
            rw [if_neg hb]
          · refine ⟨(x :: p, s', .ok (flush cur ++ x :: z)), max N M, by simp, fun n hn => ?_⟩
            simp only [finishParts, hN n (by omega), hM n (by omega)]
            rw [if_neg hb]
      by_cases hx : ∀ l, x ≠ .lit (.string l)
      · exact other hx
      · obtain ⟨l, hl⟩ := Classical.not_forall.1 hx
        have hl := Classical.not_not.1 hl
        subst hl
        rcases hb : l.asBytes with _ | bs
        · exact ⟨(.lit (.string l) :: es, s, .error (unsupported c!"concatenation of wide strings")), N,
            by simp [unsupported], fun n hn => by simp only [finishParts, hN n hn, hb]⟩
        · obtain ⟨r', M, hd', hM⟩ := finishParts_ends es hes (some (cur.getD [] ++ bs)) s
          exact ⟨(.lit (.string l) :: r'.1, r'.2.1, r'.2.2), max N M, hd', fun n hn => by
            simp only [finishParts, hN n (by omega), hb, hM n (by omega)]⟩

theorem finishCondition_ends {C : Ctx} {L : Loc} {e : Expr} (h : Ends C L e) (st : LState) :
    ∃ r N, r.res ≠ .error .diverge ∧ ∀ n ≥ N, finishCondition (Expr.finish C L n) e st = r := by
  obtain ⟨r, hd, N, hN⟩ := h st
  rcases r with ⟨x, s, r | r⟩
  · exact ⟨⟨x, s, .error r⟩, N, hd, fun n hn => by simp only [finishCondition, hN n hn]⟩
  · by_cases ht : r ≠ some (.builtIn .bool)
    · exact ⟨⟨.bin x .neq (.lit (.int ⟨0, none⟩)), s, .ok (some (.builtIn .bool))⟩, N, by simp,
        fun n hn => by simp only [finishCondition, hN n hn, if_pos ht]⟩
    · exact ⟨⟨x, s, .ok (some (.builtIn .bool))⟩, N, by simp,
        fun n hn => by simp only [finishCondition, hN n hn, if_neg ht]⟩

theorem IdentExpr.finish_ne (n : IdentExpr) (st : LState) : (n.finish st).2 ≠ .error .diverge := by
  have : ∀ ids st, (finishConcat ids st).2 ≠ .error .diverge := by
    intro ids
    induction ids with
    | nil => intro st; simp [finishConcat]
    | cons i ids ih =>
      intro st
      cases i with
      | arg i =>
        simp only [finishConcat]
        split
        · simp
        · exact ih _
      | plain s => simpa only [finishConcat] using ih st
      | int n =>
        simp only [finishConcat]
        split <;> simp [unsupported]
  cases n with
  | concat ids => exact this ids st
  | _ => simp [IdentExpr.finish]

theorem Ty.fromRust_ne (p : Option RPath) : ∀ t : RTy, Ty.fromRust p t ≠ .error .diverge
  | .ptr m t => by
    have := Ty.fromRust_ne p t
    simp only [Ty.fromRust]
    rcases h : Ty.fromRust p t with e | e
    · rw [h] at this; simpa using this
    · simp
  | .unit => by simp [Ty.fromRust]
  | .verbatim s => by simp [Ty.fromRust]
  | .path q s => by
    simp only [Ty.fromRust]
    split
    · simp
    · split <;> simp
  | .other s => by simp [Ty.fromRust]

theorem Ty.finish_ne (C : Ctx) : ∀ (t : Ty) (st : LState), (t.finish C st).res ≠ .error .diverge
  | .builtIn _, st => by simp [Ty.finish]
  | .path _ _, st => by simp [Ty.finish]
  | .ptr t, st => by simpa [Ty.finish] using Ty.finish_ne C t st
  | .qualified t q, st => by simpa [Ty.finish] using Ty.finish_ne C t st
  | .ident name s, st => by
    simp only [Ty.finish]
    have hn := IdentExpr.finish_ne name st
    generalize name.finish st = R at *
    rcases R with ⟨st, e | e⟩
    · simpa using hn
    · simp only
      split
      · split
        · simp
        · rename_i t _
          have := Ty.fromRust_ne C.ffiPrefix t
          rcases h : Ty.fromRust C.ffiPrefix t with e | e
          · rw [h] at this; simpa using this
          · simp
      · simp

theorem finishWchar_ne (C : Ctx) (st : LState) : finishWchar C st ≠ .error .diverge := by
  have := Ty.finish_ne C wcharTy st
  unfold finishWchar
  generalize wcharTy.finish C st = R at *
  rcases R with ⟨t, s, r | r⟩ <;> simpa using this

theorem LitChar.finish_ne (C : Ctx) (st : LState) (c : LitChar) : c.finish C st ≠ .error .diverge := by
  cases c <;> simp [LitChar.finish]
  exact finishWchar_ne C st

theorem Lit.finish_ne (C : Ctx) (st : LState) (l : Lit) : l.finish C st ≠ .error .diverge := by
  cases l with
  | char c =>
    have := LitChar.finish_ne C st c
    simp only [Lit.finish]
    rcases h : c.finish C st with e | e
    · rw [h] at this; simpa using this
    · simp
  | string s =>
    have : s.finish C st ≠ .error .diverge := by
      cases s <;> simp [LitString.finish]
      have := finishWchar_ne C st
      rcases h : finishWchar C st with e | e
      · rw [h] at this; simpa using this
      · simp
    simp only [Lit.finish]
    rcases h : s.finish C st with e | e
    · rw [h] at this; simpa using this
    · simp
  | float f => simp [Lit.finish]
  | int i => simp [Lit.finish]

theorem finishVar_ne (C : Ctx) (n : IdentExpr) (st : LState) : (finishVar C n st).2 ≠ .error .diverge := by
  have hn := IdentExpr.finish_ne n st
  unfold finishVar
  generalize n.finish st = R at *
  rcases R with ⟨st, e | e⟩
  · simpa using hn
  · simp only
    cases n with
    | arg i => simp only; split <;> simp
    | concat ids => simp
    | plain id =>
      simp only
      split
      · simp
      · split
        · simp
        · split
          · simp
          · split
            · rename_i t _ _
              have := Ty.fromRust_ne C.ffiPrefix t
              rcases h : Ty.fromRust C.ffiPrefix t with e | e
              · rw [h] at this; simpa using this
              · simp
            · simp

theorem inferArgs_ne (C : Ctx) : ∀ (es : List Expr) (ts : List RTy) (st : LState),
    (inferArgs C es ts st).2 ≠ .error .diverge
  | [], _, st => by simp [inferArgs]
  | _ :: _, [], st => by simp [inferArgs]
  | e :: es, t :: ts, st => by
    simp only [inferArgs]
    split
    · exact inferArgs_ne C es ts st
    · split
      · simp
      · have := Ty.fromRust_ne C.ffiPrefix t
        rcases h : Ty.fromRust C.ffiPrefix t with e | e
        · rw [h] at this; simpa using this
        · exact inferArgs_ne C es ts _
      · exact inferArgs_ne C es ts st

theorem offsetofArg_ne (a : Expr) (t : ArgTy) (st : LState) : (offsetofArg a t st).2 ≠ .error .diverge := by
  unfold offsetofArg
  split
  · simp
  · split <;> simp

theorem finishCallee_ne (C : Ctx) (n : IdentExpr) (es : List Expr) (st : LState) :
    (finishCallee C n es st).2 ≠ .error .diverge := by
  unfold finishCallee
  split
  · split
    · split
      · rename_i ret _ _
        have := Ty.fromRust_ne C.ffiPrefix ret
        rcases h : Ty.fromRust C.ffiPrefix ret with e | e
        · rw [h] at this; simpa using this
        · rename_i known _ _
          have := inferArgs_ne C es known st
          generalize inferArgs C es known st = R at *
          rcases R with ⟨s, r | r⟩
          · simpa using this
          · simp
      · simp
    · simp only
      split
      · split
        · rename_i a b
          have := offsetofArg_ne a .ty st.export
          generalize offsetofArg a .ty st.export = R at *
          rcases R with ⟨s, r | r⟩
          · simpa using this
          · have := offsetofArg_ne b .tt s
            simp only
            generalize offsetofArg b .tt s = R at *
            rcases R with ⟨s, r | r⟩
            · simpa using this
            · simp
        · simp
      · simp
  · simp

theorem finishStringify_ne (n : IdentExpr) (st : LState) : (finishStringify n st).2 ≠ .error .diverge := by
  unfold finishStringify
  split
  · split <;> simp
  · split <;> simp [unsupported]
  · simp [unsupported]

theorem binaryEffects_ne (op : BinOp) (l r : Expr) (st : LState) : (binaryEffects op l r st).2 ≠ .error .diverge := by
  unfold binaryEffects
  simp only
  split
  · rename_i st' e he
    split at he
    · split at he
      · cases he
      · split at he <;> cases he; simp
    · cases he
  · split <;> simp

theorem memberTy_ne (C : Ctx) (t : Option Ty) (r : Expr) : memberTy C t r ≠ .error .diverge := by
  unfold memberTy
  split
  · split
    · rename_i ret _
      have := Ty.fromRust_ne C.ffiPrefix ret
      rcases h : Ty.fromRust C.ffiPrefix ret with e | e
      · rw [h] at this; simpa using this
      · simp
    · simp
  · simp

theorem unaryTy_ne (L : Loc) (op : UnOp) (t : Option Ty) : unaryTy L op t ≠ .error .diverge := by
  unfold unaryTy
  split
  · simp
  · split
    · simp [unsupported]
    · split <;> simp [unsupported]
  · simp
  · simp

theorem foldBinary_ne {op : BinOp} {l r : Expr} {x : CgFail} (h : foldBinary op l r = some (.error x)) : x ≠ .diverge := by
  unfold foldBinary at h
  split at h
  · split at h
    · split at h
      · cases h
      · cases h; simp
    · cases h
  · split at h <;> cases h
  · cases h

theorem ends_lit {C : Ctx} {L : Loc} (l : Lit) : Ends C L (.lit l) := by
  intro st
  cases l with
  | char c =>
    rcases h : c.finish C st with e | e
    · refine ⟨_, .step (r := ⟨.lit (.char c), st, .error e⟩) ?_ 0 fun n _ => by simp only [finishStep, h]⟩
      have := LitChar.finish_ne C st c
      rw [h] at this; simpa using this
    · exact ⟨_, .step (r := ⟨.cast e (.lit (.char c)), st, .ok (some e)⟩) (by simp) 0 fun n _ => by simp only [finishStep, h]⟩
  | string s => exact ⟨_, .step (r := ⟨.lit (.string s), st, (Lit.string s).finish C st⟩) (Lit.finish_ne C st (.string s)) 0 fun n _ => rfl⟩
  | float s => exact ⟨_, .step (r := ⟨.lit (.float s), st, (Lit.float s).finish C st⟩) (Lit.finish_ne C st (.float s)) 0 fun n _ => rfl⟩
  | int s => exact ⟨_, .step (r := ⟨.lit (.int s), st, (Lit.int s).finish C st⟩) (Lit.finish_ne C st (.int s)) 0 fun n _ => rfl⟩

/-- `Expr::finish` terminates. -/
theorem finish_ends (C : Ctx) (L : Loc) (e : Expr) : Ends C L e := by
  suffices H : ∀ (A B S : Nat) (e : Expr), e.cnt 1 0 ≤ A → e.cnt 0 1 ≤ B → e.size ≤ S → Ends C L e from
    H _ _ _ e (Nat.le_refl _) (Nat.le_refl _) (Nat.le_refl _)
  intro A
  induction A using Nat.strongRecOn with
  | ind A ihA =>
  intro B
  induction B using Nat.strongRecOn with
  | ind B ihB =>
  intro S
  induction S using Nat.strongRecOn with
  | ind S ihS =>
  intro e hA hB hS
  have hlessA : ∀ e' : Expr, e'.cnt 1 0 < A → Ends C L e' := fun e' h =>
    ihA _ h (e'.cnt 0 1) (e'.size) e' (Nat.le_refl _) (Nat.le_refl _) (Nat.le_refl _)
  have hlessB : ∀ e' : Expr, e'.cnt 1 0 ≤ A → e'.cnt 0 1 < B → Ends C L e' := fun e' h h' =>
    ihB _ h' (e'.size) e' h (Nat.le_refl _) (Nat.le_refl _)
  have hlessS : ∀ e' : Expr, e'.cnt 1 0 ≤ A → e'.cnt 0 1 ≤ B → e'.size < S → Ends C L e' := fun e' h h' h'' =>
    ihS _ h'' e' h h' (Nat.le_refl _)
  intro st
  cases e with
  | lit l => exact ends_lit l st
  | var n => exact ⟨_, .step (r := ⟨.var n, _, _⟩) (finishVar_ne C n st) 0 fun k _ => rfl⟩
  | stringify n => exact ⟨_, .step (r := ⟨.stringify n, _, _⟩) (finishStringify_ne n st) 0 fun k _ => rfl⟩
  | sizeOf ty =>
    have := Ty.finish_ne C ty st
    rcases h : ty.finish C st with ⟨t, s, r | r⟩
    · rw [h] at this
      exact ⟨_, .step (r := ⟨.sizeOf t, s, .error r⟩) (by simpa using this) 0 fun k _ => by simp only [finishStep, h]⟩
    · exact ⟨_, .step (r := ⟨.sizeOf t, s, .ok (some (.builtIn .sizeT))⟩) (by simp) 0 fun k _ => by simp only [finishStep, h]⟩
  | cast ty x =>
    have hty := Ty.finish_ne C ty st
    simp only [Expr.cnt, Expr.size] at hA hB hS
    rcases h : ty.finish C st with ⟨t, s, r | r⟩
    · rw [h] at hty
      by_cases hu : r.isUnsupportedExpr = true
      · rcases hc : castAsProduct t x with _ | e
        · exact ⟨_, .step (r := ⟨.cast t x, s, .error r⟩) (by simpa using hty) 0 fun k _ => by
            simp only [finishStep, h, hc, hu]⟩
        · have := castAsProduct_cnt (a := 1) (b := 0) hc
          obtain ⟨r', hr'⟩ := hlessA e (by omega) s
          exact ⟨r', .step' hr' 0 fun k _ => by simp only [finishStep, h, hc, hu]⟩
      · exact ⟨_, .step (r := ⟨.cast t x, s, .error r⟩) (by simpa using hty) 0 fun k _ => by
          simp only [finishStep, h]
          split
          · rename_i e h1 _; exact absurd h1 hu
          · rfl⟩
    · obtain ⟨r', hr'⟩ := hlessS x hA hB (by omega) s
      have c1 := hr'.cnt 1 0
      obtain ⟨hd, N, hN⟩ := hr'
      rcases r' with ⟨x', s', r' | r'⟩
      · by_cases hu : r'.isUnsupportedExpr = true
        · rcases hc : castAsProduct t x' with _ | e
          · exact ⟨_, .step (r := ⟨.cast t x', s', .error r'⟩) (by simpa using hd) N fun k hk => by
              simp only [finishStep, h, hN k hk, hc, hu]⟩
          · have := castAsProduct_cnt (a := 1) (b := 0) hc
            simp only at c1
            obtain ⟨r'', hr''⟩ := hlessA e (by omega) s'
            exact ⟨r'', .step' hr'' N fun k hk => by simp only [finishStep, h, hN k hk, hc, hu]⟩
        · exact ⟨_, .step (r := ⟨.cast t x', s', .error r'⟩) (by simpa using hd) N fun k hk => by
            simp only [finishStep, h, hN k hk]
            split
            · rename_i e h1 _; exact absurd h1 hu
            · rfl⟩
      · rcases hc : castAsBinary C t x' with _ | e
        · by_cases hs : castOfString t x' = true
          · obtain ⟨bs, rfl⟩ := castOfString_lit hs
            obtain ⟨r'', hr''⟩ := ends_lit (C := C) (L := L) (.string (.ordinary bs)) s'
            exact ⟨r'', .step' hr'' N fun k hk => by simp only [finishStep, h, hN k hk, hc, if_pos hs]⟩
          · exact ⟨_, .step (r := ⟨.cast t x', s', .ok (some t)⟩) (by simp) N fun k hk => by
              simp only [finishStep, h, hN k hk, hc, if_neg hs]⟩
        · have := castAsBinary_cnt (a := 1) (b := 0) hc
          simp only at c1
          obtain ⟨r'', hr''⟩ := hlessA e (by omega) s'
          exact ⟨r'', .step' hr'' N fun k hk => by simp only [finishStep, h, hN k hk, hc]⟩
  | call name args =>
    simp only [Expr.cnt, Expr.size] at hA hB hS
    by_cases hv : L.isVar = true
    · exact ⟨_, .step (r := ⟨.call name args, st, .error (unsupported c!"function call in variable-like macro")⟩)
        (by simp [unsupported]) 0 fun k _ => by simp only [finishStep, if_pos hv]⟩
    · have hn := IdentExpr.finish_ne name st
      rcases h : name.finish st with ⟨s, r | r⟩
      · rw [h] at hn
        exact ⟨_, .step (r := ⟨.call name args, s, .error r⟩) (by simpa using hn) 0 fun k _ => by
          simp only [finishStep, if_neg hv, h]⟩
      · obtain ⟨r', N, hd, hN⟩ := finishArgs_ends args (fun e he => hlessS e
          (Nat.le_trans (Expr.mem_le he) hA) (Nat.le_trans (Expr.mem_le he) hB)
          (by have := Expr.mem_size he; omega)) s
        rcases r' with ⟨as, s', r' | r'⟩
        · exact ⟨_, .step (r := ⟨.call name as, s', .error r'⟩) (by simpa using hd) N fun k hk => by
            simp only [finishStep, if_neg hv, h, hN k hk]⟩
        · exact ⟨_, .step (r := ⟨.call name as, (finishCallee C name as s').1, (finishCallee C name as s').2⟩) (finishCallee_ne C name as s') N fun k hk => by
            simp only [finishStep, if_neg hv, h, hN k hk]⟩
  | concatStr parts =>
    simp only [Expr.cnt, Expr.size] at hA hB hS
    obtain ⟨r', N, hd, hN⟩ := finishParts_ends (C := C) (L := L) parts (fun e he => hlessS e
      (by have := Expr.mem_le (a := 1) (b := 0) he; omega)
      (by have := Expr.mem_le (a := 0) (b := 1) he; omega)
      (by have := Expr.mem_size he; omega)) none st
    have c1 := (finishParts_cnt (Expr.finish_cnt (a := 1) (b := 0) C L N) parts none st).2
    have c2 := (finishParts_cnt (Expr.finish_cnt (a := 0) (b := 1) C L N) parts none st).2
    rw [hN N (Nat.le_refl _)] at c1 c2
    rcases r' with ⟨ps, s', r' | r'⟩
    · exact ⟨_, .step (r := ⟨.concatStr ps, s', .error r'⟩) (by simpa using hd) N fun k hk => by
        simp only [finishStep, hN k hk]⟩
    · have c1 := c1 r' rfl
      have c2 := c2 r' rfl
      rcases r' with _ | ⟨p, _ | ⟨q, l⟩⟩
      · exact ⟨_, .step (r := ⟨.concatStr [], s', .ok (some Ty.charPtr)⟩) (by simp) N fun k hk => by
          simp only [finishStep, hN k hk]⟩
      · simp only [Expr.cntL] at c1 c2
        obtain ⟨r'', hr''⟩ := hlessB p (by omega) (by omega) s'
        exact ⟨r'', .step' hr'' N fun k hk => by simp only [finishStep, hN k hk]⟩
      · exact ⟨_, .step (r := ⟨.concatStr (p :: q :: l), s', .ok (some Ty.charPtr)⟩) (by simp) N fun k hk => by
          simp only [finishStep, hN k hk]⟩
  | un op x =>
    simp only [Expr.cnt, Expr.size] at hA hB hS
    obtain ⟨r', hd, N, hN⟩ := hlessS x (by omega) (by omega) (by omega) st
    rcases r' with ⟨x', s', r' | r'⟩
    · exact ⟨_, .step (r := ⟨.un op x', s', .error r'⟩) (by simpa using hd) N fun k hk => by
        simp only [finishStep, hN k hk]⟩
    · have hu := unaryTy_ne L op r'
      rcases h : unaryTy L op r' with e | t
      · rw [h] at hu
        exact ⟨_, .step (r := ⟨.un op x', s', .error e⟩) (by simpa using hu) N fun k hk => by
          simp only [finishStep, hN k hk, h]⟩
      · rcases h' : foldUnary C op x' t with e | e
        · exact ⟨_, .step (r := ⟨.un op x', s', .error (.err e)⟩) (by simp) N fun k hk => by
            simp only [finishStep, hN k hk, h, h']⟩
        · exact ⟨_, .step (r := ⟨e, s', .ok t⟩) (by simp) N fun k hk => by
            simp only [finishStep, hN k hk, h, h']⟩
  | bin l op r =>
    simp only [Expr.cnt, Expr.size] at hA hB hS
    obtain ⟨r1, hd, N, hN⟩ := hlessS l (by omega) (by omega) (by omega) st
    rcases r1 with ⟨l', s, lt | lt⟩
    · exact ⟨_, .step (r := ⟨.bin l' op r, s, .error lt⟩) (by simpa using hd) N fun k hk => by
        simp only [finishStep, hN k hk]⟩
    · obtain ⟨r2, hd, M, hM⟩ := hlessS r (by omega) (by omega) (by omega) s
      rcases r2 with ⟨r', s2, rt | rt⟩
      · exact ⟨_, .step (r := ⟨.bin l' op r', s2, .error rt⟩) (by simpa using hd) (max N M) fun k hk => by
          simp only [finishStep, hN k (by omega), hM k (by omega)]⟩
      · have he := binaryEffects_ne op l' r' s2
        rcases h : binaryEffects op l' r' s2 with ⟨s3, x | x⟩
        · rw [h] at he
          exact ⟨_, .step (r := ⟨.bin l' op r', s3, .error x⟩) (by simpa using he) (max N M) fun k hk => by
            simp only [finishStep, hN k (by omega), hM k (by omega), h]⟩
        · rcases h' : adjustOperands op l' r' lt rt with ⟨l2, r2, lt2, rt2⟩
          by_cases hm : op = .memberAccess
          · exact ⟨_, .step (r := ⟨.bin l2 op r2, s3, memberTy C lt2 r2⟩) (memberTy_ne C lt2 r2) (max N M) fun k hk => by
              simp only [finishStep, hN k (by omega), hM k (by omega), h, h', if_pos hm]⟩
          · rcases hf : foldBinary op l2 r2 with _ | (e | e)
            · exact ⟨_, .step (r := ⟨.bin l2 op r2, s3, .ok _⟩) (by simp) (max N M) fun k hk => by
                simp only [finishStep, hN k (by omega), hM k (by omega), h, h', if_neg hm, hf]; rfl⟩
            · exact ⟨_, .step (r := ⟨.bin l2 op r2, s3, .error e⟩) (by simpa using foldBinary_ne hf) (max N M) fun k hk => by
                simp only [finishStep, hN k (by omega), hM k (by omega), h, h', if_neg hm, hf]⟩
            · obtain ⟨x, rfl, _⟩ := foldBinary_lit hf
              obtain ⟨r'', hr''⟩ := ends_lit (C := C) (L := L) x s3
              exact ⟨r'', .step' hr'' (max N M) fun k hk => by
                simp only [finishStep, hN k (by omega), hM k (by omega), h, h', if_neg hm, hf]⟩
  | ternary c t u =>
    simp only [Expr.cnt, Expr.size] at hA hB hS
    obtain ⟨r1, N, hd, hN⟩ := finishCondition_ends (hlessS c (by omega) (by omega) (by omega)) st
    rcases r1 with ⟨c', s, x | x⟩
    · exact ⟨_, .step (r := ⟨.ternary c' t u, s, .error x⟩) (by simpa using hd) N fun k hk => by
        simp only [finishStep, hN k hk]⟩
    · obtain ⟨r2, hd, M, hM⟩ := hlessS t (by omega) (by omega) (by omega) s
      rcases r2 with ⟨t', s2, tt | tt⟩
      · exact ⟨_, .step (r := ⟨.ternary c' t' u, s2, .error tt⟩) (by simpa using hd) (max N M) fun k hk => by
          simp only [finishStep, hN k (by omega), hM k (by omega)]⟩
      · obtain ⟨r3, hd, K, hK⟩ := hlessS u (by omega) (by omega) (by omega) s2
        rcases r3 with ⟨u', s3, ut | ut⟩
        · exact ⟨_, .step (r := ⟨.ternary c' t' u', s3, .error ut⟩) (by simpa using hd) (max (max N M) K) fun k hk => by
            simp only [finishStep, hN k (by omega), hM k (by omega), hK k (by omega)]⟩
        · exact ⟨_, .step (r := ⟨.ternary c' t' u', s3, .ok _⟩) (by simp) (max (max N M) K) fun k hk => by
            simp only [finishStep, hN k (by omega), hM k (by omega), hK k (by omega)]; rfl⟩

end CMacro
