import Verif.Props.Grammar
import Verif.Spec.Ambig
import Verif.Proofs.Fold
import Verif.Proofs.Generate
import Verif.Model.Pipeline

/-!
# C40 and C58: parentheses around parameters
-/

namespace CMacro
open Parser Spec

/-! ## Parsing -/

theorem argTy_paren (E : Env) (i : Nat) (r : List MacroToken) :
    parenthesized (parseTy E) (.punct c!"(" :: .arg i :: .punct c!")" :: r) = some (.ident (.arg i) false, r) := by
  kernel_rfl

theorem prec2_argCast {E : Env} (i : Nat) {ts r : List MacroToken} {e : Expr} (h : lv E 2 ts = some (e, r)) :
    lv E 2 (.punct c!"(" :: .arg i :: .punct c!")" :: ts) = some (.cast (.ident (.arg i) false) e, r) := by
  have hk : (knot E).prec2 ts = some (e, r) := (knot_prec2 E ts).trans h
  show prec2 E (knot E) _ = _
  simp only [prec2, Parser.or, map, seq, argTy_paren, hk]

theorem prec2_nil (E : Env) : lv E 2 [] = none := by
  show prec2 E (knot E) [] = none
  kernel_rfl

theorem prec2_argParen (E : Env) (i : Nat) :
    lv E 2 [.punct c!"(", .arg i, .punct c!")"] = some (.var (.arg i), []) := by
  have hk : (knot E).prec2 [] = none := (knot_prec2 E []).trans (prec2_nil E)
  have h1 : parseExpr E [.arg i, .punct c!")"] = some (.var (.arg i), [.punct c!")"]) :=
    (Gram.ups (.name .arg) (Nat.zero_le _) (Nat.le_refl _)).reads E [.punct c!")"] (stop_punct (by decide) _)
  have h2 : (knot E).expr [.arg i, .punct c!")"] = some (.var (.arg i), [.punct c!")"]) := by rw [knot_is]; exact h1
  have h3 : prec1 E (knot E) [.punct c!"(", .arg i, .punct c!")"] = some (.var (.arg i), []) := by
    rw [prec1_of (factor_paren E _ (by rintro s r ⟨⟩) h2)]
    exact accLoop_stop E (.inl rfl)
  have h4 : prefixOp [.punct c!"(", .arg i, .punct c!")"] = none := by kernel_rfl
  show prec2 E (knot E) _ = _
  simp only [prec2, Parser.or, map, seq, argTy_paren, hk, h3, terminated, h4]

/-- What the unary level reads to the end is read as an expression. -/
theorem expr_of_prec2 {E : Env} {ts : List MacroToken} {e : Expr} (h : lv E 2 ts = some (e, [])) : parseExpr E ts = some (e, []) := by
  have hs : ∀ n, Stop (stops n) [] := fun _ => .inl rfl
  have up : ∀ n, 2 ≤ n → lv E n ts = some (e, []) → lv E (n + 1) ts = some (e, []) := fun n hn h => by
    rw [lv_of hn h, binLoop_stop (hs _)]
  have h10 := up 9 (by decide) (up 8 (by decide) (up 7 (by decide) (up 6 (by decide) (up 5 (by decide) (up 4 (by decide) (up 3 (by decide)
    (up 2 (by decide) h)))))))
  exact prec14_of (prec13_of h10 (hs _)) (hs _)

theorem body_of_prec2 {E : Env} {t : MacroToken} {ts : List MacroToken} (ht : ∀ s, t ≠ .comment s) {e : Expr} (h : lv E 2 (t :: ts) = some (e, [])) :
    MacroBody.parse E (t :: ts) = some (.expr e, []) := by
  unfold MacroBody.parse
  rw [meta_none (by rintro s r ⟨⟩; exact ht _ rfl)]
  simp only [Parser.or, allConsuming, map, expr_of_prec2 h]

theorem fnParse_ok {E : Env} {name : Str} {as ts : List MacroToken} {m : FnMacro} {b : MacroBody} {r : List MacroToken}
    (h : FnMacro.parse E name as ts = .ok m) (hb : MacroBody.parse E ts = some (b, r)) : m = ⟨name, m.args, b⟩ := by
  unfold FnMacro.parse at h
  split at h
  · split at h
    · rw [hb] at h
      cases h; rfl
    · cases h
  · cases h

theorem fnParse_args {E : Env} {name : Str} {as ts ts' : List MacroToken} {m m' : FnMacro} (h : FnMacro.parse E name as ts = .ok m)
    (h' : FnMacro.parse E name as ts' = .ok m') : m.args = m'.args := by
  unfold FnMacro.parse at h h'
  split at h
  · rename_i hn
    rw [if_pos hn] at h'
    split at h
    · rename_i ha
      rw [ha] at h'
      dsimp only at h'
      split at h <;> cases h
      split at h' <;> cases h'
      rfl
    · cases h
  · cases h

/-! ## Finishing trees of names -/

/-- `finish` leaves the tree and the types of the parameters alone. -/
def Still (C : Ctx) (L : Loc) (tys : List ArgTy) (e : Expr) (x : Bool) (t : Option Ty) : Prop :=
  ∀ f, Ev C L e ⟨tys, f⟩ ⟨e, ⟨tys, f || x⟩, .ok t⟩

/-- `finish` fails. -/
def Fails (C : Ctx) (L : Loc) (tys : List ArgTy) (e : Expr) : Prop := ∀ f, ∃ e' st x, Ev C L e ⟨tys, f⟩ ⟨e', st, .error x⟩

theorem adjust_names {op : BinOp} {a b : Expr} {lt rt : Option Ty} (ha : ∀ l, a ≠ .lit l) (hb : ∀ l, b ≠ .lit l) :
    adjustOperands op a b lt rt = (a, b, lt, rt) := by
  unfold adjustOperands
  split
  · exact absurd rfl (ha _)
  · exact absurd rfl (ha _)
  · exact absurd rfl (hb _)
  · exact absurd rfl (ha _)
  · rfl

theorem foldBinary_names {op : BinOp} {a b : Expr} (ha : ∀ l, a ≠ .lit l) : foldBinary op a b = none := by
  unfold foldBinary
  split
  · exact absurd rfl (ha _)
  · exact absurd rfl (ha _)
  · rfl

theorem binaryOps_plain {ℓ : Nat} {p : Str} {op : BinOp} (h : (ℓ, p, op) ∈ binaryOps) : op.isAssignment = false ∧ op ≠ .memberAccess := by
  simp only [binaryOps, List.mem_cons, List.not_mem_nil, or_false, Prod.mk.injEq] at h
  rcases h with ⟨_, _, rfl⟩ | ⟨_, _, rfl⟩ | ⟨_, _, rfl⟩ | ⟨_, _, rfl⟩ | ⟨_, _, rfl⟩ | ⟨_, _, rfl⟩ | ⟨_, _, rfl⟩ | ⟨_, _, rfl⟩ |
    ⟨_, _, rfl⟩ | ⟨_, _, rfl⟩ | ⟨_, _, rfl⟩ | ⟨_, _, rfl⟩ | ⟨_, _, rfl⟩ | ⟨_, _, rfl⟩ | ⟨_, _, rfl⟩ | ⟨_, _, rfl⟩ <;>
    exact ⟨rfl, by decide⟩

/-- The type of a binary operation. -/
def binTy (op : BinOp) (lt rt : Option Ty) : Option Ty := if op.isBool then some (.builtIn .bool) else joinTy lt rt

theorem still_bin {C : Ctx} {L : Loc} {tys : List ArgTy} {a b : Expr} {x y : Bool} {s t : Option Ty} {op : BinOp}
    (hop : op.isAssignment = false ∧ op ≠ .memberAccess) (ha : Still C L tys a x s) (hb : Still C L tys b y t)
    (na : ∀ l, a ≠ .lit l) (nb : ∀ l, b ≠ .lit l) : Still C L tys (.bin a op b) (x || y) (binTy op s t) := by
  intro f
  obtain ⟨_, N, hN⟩ := ha f
  obtain ⟨_, M, hM⟩ := hb (f || x)
  have he : binaryEffects op a b ⟨tys, f || x || y⟩ = (⟨tys, f || x || y⟩, .ok ()) := by
    simp [binaryEffects, hop.1, hop.2]
  refine .step (by simp) (max N M) fun k hk => ?_
  simp only [finishStep, hN k (by omega), hM k (by omega), he, adjust_names na nb, if_neg hop.2, foldBinary_names na, binTy]
  rw [Bool.or_assoc]

theorem Spec.NameTree.not_lit {e : Expr} (h : NameTree e) (l : Lit) : e ≠ .lit l := by
  rintro rfl; exact h

theorem Ev.unique {C : Ctx} {L : Loc} {e : Expr} {st : LState} {r r' : Fin Expr} (h : Ev C L e st r) (h' : Ev C L e st r') : r = r' := by
  obtain ⟨_, N, hN⟩ := h
  obtain ⟨_, M, hM⟩ := h'
  rw [← hN (max N M) (by omega), ← hM (max N M) (by omega)]

theorem arg_still_or_fails (C : Ctx) (L : Loc) (tys : List ArgTy) (i : Nat) :
    (∃ t, Still C L tys (.var (.arg i)) false t) ∨ Fails C L tys (.var (.arg i)) := by
  cases h : tys[i]? with
  | none => exact .inr fun f => ⟨.var (.arg i), ⟨tys, f⟩, .panic, .step (by simp) 0 fun _ _ => by
      simp only [finishStep, finishVar, IdentExpr.finish, LState.argTy, h]⟩
  | some a =>
    refine .inl ⟨(match a with | .known t => some t | _ => none), fun f => .step (by simp) 0 fun _ _ => ?_⟩
    cases a <;> simp only [finishStep, finishVar, IdentExpr.finish, LState.argTy, h, Bool.or_false]

theorem arg_still {C : Ctx} {L : Loc} {tys : List ArgTy} {i : Nat} (h : i < tys.length) : ∃ t, Still C L tys (.var (.arg i)) false t := by
  refine ⟨(match tys[i] with | .known t => some t | _ => none), fun f => .step (by simp) 0 fun _ _ => ?_⟩
  simp only [finishStep, finishVar, IdentExpr.finish, LState.argTy, List.getElem?_eq_getElem h, Bool.or_false]
  generalize tys[i] = a
  cases a <;> rfl

theorem still_or_fails (C : Ctx) (L : Loc) (tys : List ArgTy) : ∀ {e : Expr}, NameTree e → (∃ x t, Still C L tys e x t) ∨ Fails C L tys e
  | .var (.plain id), _ => by
    by_cases h1 : id = c!"__LINE__"
    · exact .inl ⟨true, _, fun f => .step (by simp) 0 fun _ _ => by
        simp only [finishStep, finishVar, IdentExpr.finish, h1, if_true, LState.export, Bool.or_true]; rfl⟩
    by_cases h2 : id = c!"__FILE__"
    · exact .inl ⟨true, _, fun f => .step (by simp) 0 fun _ _ => by
        simp only [finishStep, finishVar, IdentExpr.finish, if_neg h1, if_pos h2, LState.export, Bool.or_true]; rfl⟩
    cases h3 : limitTy id with
    | some b => exact .inl ⟨false, _, fun f => .step (by simp) 0 fun _ _ => by
        simp only [finishStep, finishVar, IdentExpr.finish, if_neg h1, if_neg h2, h3, Bool.or_false]; rfl⟩
    | none =>
      cases h4 : C.resolveEnumVariant id with
      | none => exact .inl ⟨true, _, fun f => .step (by simp) 0 fun _ _ => by
          simp only [finishStep, finishVar, IdentExpr.finish, if_neg h1, if_neg h2, h3, h4, LState.export, Bool.or_true]; rfl⟩
      | some v =>
        cases h5 : Ty.fromRust C.ffiPrefix v.1 with
        | ok t => exact .inl ⟨false, _, fun f => .step (by simp) 0 fun _ _ => by
            simp only [finishStep, finishVar, IdentExpr.finish, if_neg h1, if_neg h2, h3, h4, h5, Bool.or_false]; rfl⟩
        | error x => 
          have := Ty.fromRust_ne C.ffiPrefix v.1
          rw [h5] at this
          exact .inr fun f => ⟨.var (.plain id), ⟨tys, f⟩, x, .step (by simpa using this) 0 fun _ _ => by
            simp only [finishStep, finishVar, IdentExpr.finish, if_neg h1, if_neg h2, h3, h4, h5]⟩
  | .var (.arg i), _ => (arg_still_or_fails C L tys i).imp (fun ⟨t, h⟩ => ⟨false, t, h⟩) id
  | .bin a op b, ⟨⟨ℓ, p, hop⟩, ha, hb⟩ => by
    have hp := binaryOps_plain hop
    rcases still_or_fails C L tys ha with ⟨x, s, h1⟩ | h1
    · rcases still_or_fails C L tys hb with ⟨y, t, h2⟩ | h2
      · exact .inl ⟨_, _, still_bin hp h1 h2 ha.not_lit hb.not_lit⟩
      · refine .inr fun f => ?_
        obtain ⟨_, N, hN⟩ := h1 f
        obtain ⟨e', st, z, hd, M, hM⟩ := h2 (f || x)
        exact ⟨.bin a op e', st, z, .step hd (max N M) fun k hk => by
          simp only [finishStep, hN k (by omega), hM k (by omega)]⟩
    · refine .inr fun f => ?_
      obtain ⟨e', st, x, hd, N, hN⟩ := h1 f
      exact ⟨.bin e' op b, st, x, .step hd N fun k hk => by simp only [finishStep, hN k hk]⟩

/-- The rewriting of casts: `(x) op e`. -/
theorem ev_argCast {C : Ctx} {L : Loc} {tys : List ArgTy} {i : Nat} {u : UnOp} {op : BinOp} {e e' : Expr} {f x : Bool} {s t s' : Option Ty}
    (hu : u.asBinary = some op) (hi : Still C L tys (.var (.arg i)) false s)
    (he : Ev C L e ⟨tys, f⟩ ⟨e', ⟨tys, f || x⟩, .ok t⟩) (h' : Still C L tys e' x t) (hn : ∀ l, e' ≠ .lit l) (ht : unaryTy L u t = .ok s') :
    Ev C L (.cast (.ident (.arg i) false) (.un u e)) ⟨tys, f⟩ ⟨.bin (.var (.arg i)) op e', ⟨tys, f || x⟩, .ok (binTy op s t)⟩ := by
  have hop : op.isAssignment = false ∧ op ≠ .memberAccess := by cases u <;> cases hu <;> exact ⟨rfl, by decide⟩
  have hfold : foldUnary C u e' s' = .ok (.un u e') := by
    cases u <;> first | cases hu | skip
    all_goals
      unfold foldUnary
      split <;> first | rfl | exact absurd rfl (hn _) | contradiction
  obtain ⟨_, N, hN⟩ := he
  have hun : Ev C L (.un u e) ⟨tys, f⟩ ⟨.un u e', ⟨tys, f || x⟩, .ok s'⟩ := .step (by simp) N fun k hk => by
    simp only [finishStep, hN k hk, ht, hfold]
  obtain ⟨_, M, hM⟩ := hun
  have hb := still_bin hop hi h' (by simp) hn (f || x)
  simp only [Bool.false_or, Bool.or_assoc, Bool.or_self] at hb
  refine .step' hb M fun k hk => ?_
  simp only [finishStep, Ty.finish, IdentExpr.finish, hM k hk, castAsBinary, treatAsBinop, if_true, hu, Option.map_some, Bool.or_assoc]


/-! ## C40 -/

/-- **C40**, the full statement: parentheses around the parameter on the left of an operator make no difference to the generated code. -/
def C40_statement : Prop :=
  ∀ (C : Ctx) (name : Str) (as : List MacroToken) (i ℓ : Nat) (p : Str) (u : UnOp) (op : BinOp) (ts : List MacroToken) (e : Expr)
    (m m' : FnMacro) (out : GenFn), (p, u, ℓ, op) ∈ dualOps → Gram ℓ ts e →
    FnMacro.parse C.env name as (.arg i :: .punct p :: ts) = .ok m →
    FnMacro.parse C.env name as (.punct c!"(" :: .arg i :: .punct c!")" :: .punct p :: ts) = .ok m' →
    m.Generates C (.ok out) → m'.Generates C (.ok out)

theorem dualOps_mem {p : Str} {u : UnOp} {ℓ : Nat} {op : BinOp} (h : (p, u, ℓ, op) ∈ dualOps) :
    (p, u) ∈ prefixOps ∧ (ℓ + 1, p, op) ∈ binaryOps ∧ u.asBinary = some op ∧ 2 ≤ ℓ ∧ ℓ < 12 := by
  simp only [dualOps, List.mem_cons, List.not_mem_nil, or_false, Prod.mk.injEq] at h
  rcases h with ⟨rfl, rfl, rfl, rfl⟩ | ⟨rfl, rfl, rfl, rfl⟩ | ⟨rfl, rfl, rfl, rfl⟩ | ⟨rfl, rfl, rfl, rfl⟩ <;> decide

theorem argTypes_at {C : Ctx} {name : Str} : ∀ {as : List Str} {tys : List ArgTy}, argTypes C name as = .ok tys → ∀ i : Nat,
    tys[i]? = none ∧ as[i]? = none ∨ ∃ (a : Str) (t : ArgTy), as[i]? = some a ∧ tys[i]? = some t ∧ (C.macroArgTy name a = none → t = ArgTy.unknown)
  | [], tys, h, i => by cases h; simp
  | a :: as, tys, h, i => by
    unfold argTypes at h
    split at h
    · cases h
    · rename_i t h1
      split at h
      · cases h
      · rename_i ts h2
        cases h
        cases i with
        | zero =>
          refine .inr ⟨a, t, rfl, rfl, fun h => ?_⟩
          rw [h] at h1
          cases h1; rfl
        | succ i => simpa using argTypes_at h2 i

theorem argTypes_length {C : Ctx} {name : Str} : ∀ {as : List Str} {tys : List ArgTy}, argTypes C name as = .ok tys → tys.length = as.length
  | [], tys, h => by cases h; rfl
  | a :: as, tys, h => by
    unfold argTypes at h
    split at h
    · cases h
    · split at h
      · cases h
      · rename_i h2
        cases h
        simp only [List.length_cons, argTypes_length h2]

theorem untyped_still {C : Ctx} {L : Loc} {name : Str} {params : List Str} {tys : List ArgTy} (ha : argTypes C name params = .ok tys) :
    ∀ {e : Expr} {x : Bool} {t : Option Ty}, NameTree e → Untyped C name params e → Still C L tys e x t → t = none
  | .var (.plain id), x, t, _, ⟨h1, h2⟩, hs => by
    simp only [typedNames, List.mem_cons, List.not_mem_nil, or_false, not_or] at h1
    obtain ⟨_, N, hN⟩ := hs false
    have := hN (N + 1) (by omega)
    simp only [Expr.finish, finishStep, finishVar, IdentExpr.finish, limitTy, h1, h2, if_false] at this
    cases this; rfl
  | .var (.arg i), x, t, _, h, hs => by
    obtain ⟨_, N, hN⟩ := hs false
    have := hN (N + 1) (by omega)
    simp only [Expr.finish, finishStep, finishVar, IdentExpr.finish, LState.argTy] at this
    rcases argTypes_at ha i with ⟨h1, _⟩ | ⟨a, ty, h1, h2, h3⟩
    · rw [h1] at this; cases this
    · rw [h2, h3 (h a h1)] at this
      cases this; rfl
  | .bin a op b, x, t, ⟨⟨ℓ, p, hop⟩, na, nb⟩, ⟨hb, ua, ub⟩, hs => by
    have hp := binaryOps_plain hop
    have hbool : op.isBool = false := by
      simp only [List.mem_cons, List.not_mem_nil, or_false, not_or] at hb
      simp only [binaryOps, List.mem_cons, List.not_mem_nil, or_false, Prod.mk.injEq] at hop
      cases op <;> first | rfl | simp at hop; done | simp at hb; done
    rcases still_or_fails C L tys na with ⟨y, s, h1⟩ | h1
    · rcases still_or_fails C L tys nb with ⟨z, s', h2⟩ | h2
      · have h3 := still_bin hp h1 h2 na.not_lit nb.not_lit false
        have h4 := Ev.unique (hs false) h3
        have e1 := untyped_still ha na ua h1
        have e2 := untyped_still ha nb ub h2
        simp only [Fin.mk.injEq, Except.ok.injEq] at h4
        rw [h4.2.2, e1, e2, binTy, hbool]; rfl
      · obtain ⟨_, N, hN⟩ := h1 false
        obtain ⟨e', st, w, hd, M, hM⟩ := h2 (false || y)
        have : Ev C L (.bin a op b) ⟨tys, false⟩ ⟨.bin a op e', st, .error w⟩ := .step hd (max N M) fun k hk => by
          simp only [finishStep, hN k (by omega), hM k (by omega)]
        have := Ev.unique (hs false) this
        cases this
    · obtain ⟨e', st, w, hd, N, hN⟩ := h1 false
      have : Ev C L (.bin a op b) ⟨tys, false⟩ ⟨.bin e' op b, st, .error w⟩ := .step hd N fun k hk => by simp only [finishStep, hN k hk]
      have := Ev.unique (hs false) this
      cases this

/-- **C40** for operands that are trees of binary operators over names, on the unary level (a name, or anything in parentheses); for
`*` only if the types of the names are not known. -/
theorem C40_names_partial (C : Ctx) (name : Str) (as : List MacroToken) (i ℓ : Nat) (p : Str) (u : UnOp) (op : BinOp) (ts : List MacroToken)
    (e : Expr) (m m' : FnMacro) (out : GenFn) (hop : (p, u, ℓ, op) ∈ dualOps) (hg : Gram 2 ts e) (hn : NameTree e)
    (hu : op = .mul → Untyped C name m.args e)
    (hm : FnMacro.parse C.env name as (.arg i :: .punct p :: ts) = .ok m)
    (hm' : FnMacro.parse C.env name as (.punct c!"(" :: .arg i :: .punct c!")" :: .punct p :: ts) = .ok m')
    (h : m.Generates C (.ok out)) : m'.Generates C (.ok out) := by
  obtain ⟨hpre, hbin, hub, hl, hl'⟩ := dualOps_mem hop
  have hb1 : MacroBody.parse C.env (.arg i :: .punct p :: ts) = some (.expr (.bin (.var (.arg i)) op e), []) :=
    (Gram.ups (.bin hbin (.ups (.name .arg) (Nat.zero_le _) (by omega)) (hg.ups hl (by omega))) (by omega) (Nat.le_refl _) : Gram 12 _ _).body C.env
  have hr : lv C.env 2 ts = some (e, []) := by
    have := hg.reads C.env [] (.inl rfl)
    rwa [List.append_nil] at this
  have hc : PlainStart ts := by
    have := hg.start.noComment []
    rwa [List.append_nil] at this
  have hb2 : MacroBody.parse C.env (.punct c!"(" :: .arg i :: .punct c!")" :: .punct p :: ts) =
      some (.expr (.cast (.ident (.arg i) false) (.un u e)), []) :=
    body_of_prec2 (by simp) (prec2_argCast i (prec2_pre hpre hc hr))
  have e1 := fnParse_ok hm hb1
  have e2 := fnParse_ok hm' hb2
  have e3 := fnParse_args hm hm'
  generalize m.args = args at *
  subst e1
  rw [← e3] at e2
  subst e2
  obtain ⟨tys, ha⟩ := h.argTypes
  rcases arg_still_or_fails C (fnLoc args) tys i with ⟨s, h1⟩ | h1
  · rcases still_or_fails C (fnLoc args) tys hn with ⟨y, t, h2⟩ | h2
    · have h3 := still_bin (binaryOps_plain hbin) h1 h2 (by simp) hn.not_lit false
      have hty : ∃ s', unaryTy (fnLoc args) u t = .ok s' := by
        cases u <;> cases hub <;> first | exact ⟨_, rfl⟩ | skip
        rw [untyped_still ha hn (hu rfl) h2]
        exact ⟨_, rfl⟩
      obtain ⟨s', hty⟩ := hty
      have h4 := ev_argCast hub h1 (h2 false) h2 hn.not_lit hty
      simp only [Bool.false_or] at h3 h4
      have g1 := fnGenerates (name := name) (args := args) ha h3
      have g2 := fnGenerates (name := name) (args := args) ha h4
      rw [← FnMacro.Generates.unique g1 h]
      exact g2
    · obtain ⟨_, N, hN⟩ := h1 false
      obtain ⟨e', st, w, hd, M, hM⟩ := h2 (false || false)
      have : Ev C (fnLoc args) (.bin (.var (.arg i)) op e) ⟨tys, false⟩ ⟨.bin (.var (.arg i)) op e', st, .error w⟩ :=
        .step hd (max N M) fun k hk => by simp only [finishStep, hN k (by omega), hM k (by omega)]
      have := FnMacro.Generates.unique h (fnGenerates (name := name) (args := args) ha this)
      cases this
  · obtain ⟨e', st, w, hd, N, hN⟩ := h1 false
    have : Ev C (fnLoc args) (.bin (.var (.arg i)) op e) ⟨tys, false⟩ ⟨.bin e' op e, st, .error w⟩ :=
      .step hd N fun k hk => by simp only [finishStep, hN k hk]
    have := FnMacro.Generates.unique h (fnGenerates (name := name) (args := args) ha this)
    cases this

/-- `(x) & (y + z)` and `(x) * y` meet the hypotheses. -/
example : Gram 2 [.punct c!"(", .arg 1, .punct c!"+", .arg 2, .punct c!")"] (.bin (.var (.arg 1)) .add (.var (.arg 2))) := by
  have : Gram 12 ([.arg 1] ++ .punct c!"+" :: [.arg 2]) (.bin (.var (.arg 1)) .add (.var (.arg 2))) :=
    .ups (.bin (ℓ := 3) (by decide) (.ups (.name .arg) (by decide) (by decide)) (.ups (.name .arg) (by decide) (by decide))) (by decide) (by decide)
  exact .ups (.paren this (by rintro t n _ ⟨⟩)) (by decide) (by decide)

example : pipeFn 20 (Ctx.unit asciiEnv) [.defineFn c!"F" [c!"x", c!"y", c!"z"]
      [c!"(", c!"x", c!")", c!"&", c!"(", c!"y", c!"+", c!"z", c!")"]] c!"F" =
    .gen (.ok (.macro c!"F" [q!"$ x : expr", q!"$ y : expr", q!"$ z : expr"] q!"$ x & $ y + $ z")) := by decide +kernel

example : Untyped (Ctx.unit asciiEnv) c!"F" [c!"x", c!"y"] (.var (.arg 1)) := by
  intro a _; rfl

/-- The parameters of the examples, as tokens. -/
def xyz : List MacroToken := [.ident c!"x", .ident c!"y", .ident c!"z"]

theorem gen_xyz (n : Nat) (e : Expr) (h : (e.finish (Ctx.unit asciiEnv) (fnLoc [c!"x", c!"y", c!"z"]) n ⟨[.unknown, .unknown, .unknown], false⟩).res
    ≠ .error .diverge) {out : GenFn} (ho : FnMacro.generate n (Ctx.unit asciiEnv) ⟨c!"F", [c!"x", c!"y", c!"z"], .expr e⟩ = .ok out) :
    FnMacro.Generates (Ctx.unit asciiEnv) ⟨c!"F", [c!"x", c!"y", c!"z"], .expr e⟩ (.ok out) :=
  ho ▸ fnGenerates_of n _ _ _ e _ (by rfl) h

/-- **C40** is false of the code: `(x) - y * z` becomes `($x - $y) * $z`. -/
theorem C40_false : ¬ C40_statement := by
  intro h
  have hg : Gram 3 [.arg 1, .punct c!"*", .arg 2] (.bin (.var (.arg 1)) .mul (.var (.arg 2))) :=
    .bin (ℓ := 2) (ts := [.arg 1]) (by decide) (.ups (.name .arg) (by decide) (by decide)) (.ups (.name .arg) (by decide) (by decide))
  have g1 := gen_xyz 9 (.bin (.var (.arg 0)) .sub (.bin (.var (.arg 1)) .mul (.var (.arg 2)))) (by decide +kernel)
    (out := .macro c!"F" [q!"$ x : expr", q!"$ y : expr", q!"$ z : expr"] q!"$ x - $ y * $ z") (by decide +kernel)
  have g2 := gen_xyz 9 (.bin (.cast (.ident (.arg 0) false) (.un .minus (.var (.arg 1)))) .mul (.var (.arg 2))) (by decide +kernel)
    (out := .macro c!"F" [q!"$ x : expr", q!"$ y : expr", q!"$ z : expr"] q!"( $ x - $ y ) * $ z") (by decide +kernel)
  have := (h (Ctx.unit asciiEnv) c!"F" xyz 0 3 c!"-" .minus .sub [.arg 1, .punct c!"*", .arg 2] _
    ⟨c!"F", [c!"x", c!"y", c!"z"], .expr (.bin (.var (.arg 0)) .sub (.bin (.var (.arg 1)) .mul (.var (.arg 2))))⟩
    ⟨c!"F", [c!"x", c!"y", c!"z"], .expr (.bin (.cast (.ident (.arg 0) false) (.un .minus (.var (.arg 1)))) .mul (.var (.arg 2)))⟩ _
    (by decide) hg (by kernel_rfl) (by kernel_rfl) g1).unique g2
  revert this
  decide +kernel

/-- With a constant the cast stays: `(x) - 1` becomes `-1i8 as $x`. -/
theorem C40_false_constant : ∃ m, FnMacro.parse asciiEnv c!"F" xyz [.punct c!"(", .arg 0, .punct c!")", .punct c!"-", .lit (.int ⟨1, none⟩)] = .ok m ∧
    m.Generates (Ctx.unit asciiEnv) (.ok (.macro c!"F" [q!"$ x : expr", q!"$ y : expr", q!"$ z : expr"] [.int (-1) c!"i8", .id c!"as", .punct c!"$", .id c!"x"])) :=
  ⟨⟨c!"F", [c!"x", c!"y", c!"z"], .expr (.cast (.ident (.arg 0) false) (.un .minus (.lit (.int ⟨1, none⟩))))⟩, by kernel_rfl, gen_xyz 9 _ (by decide +kernel) (by decide +kernel)⟩

/-! ## C58 -/

/-- The operators of `C58`. -/
def addOps : List (Str × UnOp × BinOp) := [(c!"+", .plus, .add), (c!"-", .minus, .sub)]

/-- **C58**, the full statement: the chain `(x₀) op₁ (x₁) op₂ (x₂) …` of sums and differences of parameters means
`((x₀ op₁ x₁) op₂ x₂) …`. -/
def C58_statement : Prop :=
  ∀ (C : Ctx) (name : Str) (as : List MacroToken) (x : Nat) (l : List ((Str × UnOp × BinOp) × Nat)) (m : FnMacro) (out : GenFn),
    (∀ y ∈ l, y.1 ∈ addOps) → FnMacro.parse C.env name as (chain x (l.map fun y => (y.1.1, y.2))) = .ok m →
    FnMacro.Generates C ⟨name, m.args, .expr (leftNested (.var (.arg x)) (l.map fun y => (y.1.2.2, y.2)))⟩ (.ok out) →
    m.Generates C (.ok out)

/-- The tree before code generation. -/
def castChain (x : Nat) : List ((Str × UnOp × BinOp) × Nat) → Expr
  | [] => .var (.arg x)
  | ((_, u, _), y) :: l => .cast (.ident (.arg x) false) (.un u (castChain y l))

theorem addOps_mem {p : Str} {u : UnOp} {op : BinOp} (h : (p, u, op) ∈ addOps) : (p, u) ∈ prefixOps ∧ u.asBinary = some op ∧
    (op.isAssignment = false ∧ op ≠ .memberAccess) ∧ ∀ L t, unaryTy L u t = .ok t := by
  simp only [addOps, List.mem_cons, List.not_mem_nil, or_false, Prod.mk.injEq] at h
  rcases h with ⟨rfl, rfl, rfl⟩ | ⟨rfl, rfl, rfl⟩ <;> exact ⟨by decide, rfl, by decide, fun _ _ => rfl⟩

theorem chain_plain (x : Nat) : ∀ l, PlainStart (chain x l)
  | [] => by rintro s r ⟨⟩
  | _ :: _ => by rintro s r ⟨⟩

theorem chain_parse (E : Env) : ∀ (l : List ((Str × UnOp × BinOp) × Nat)) (x : Nat), (∀ y ∈ l, y.1 ∈ addOps) →
    lv E 2 (chain x (l.map fun y => (y.1.1, y.2))) = some (castChain x l, [])
  | [], x, _ => prec2_argParen E x
  | ((p, u, op), y) :: l, x, h => by
    have h1 := addOps_mem (h _ (List.mem_cons_self ..))
    exact prec2_argCast x (prec2_pre h1.1 (chain_plain _ _) (chain_parse E l y fun z hz => h z (List.mem_cons_of_mem _ hz)))

theorem rightNested_not_lit (x : Nat) : ∀ l t, rightNested x l ≠ .lit t
  | [], _ => by simp [rightNested]
  | _ :: _, _ => by simp [rightNested]

theorem chain_ev {C : Ctx} {L : Loc} {tys : List ArgTy} : ∀ (l : List ((Str × UnOp × BinOp) × Nat)) (x : Nat), (∀ y ∈ l, y.1 ∈ addOps) →
    x < tys.length → (∀ y ∈ l, y.2 < tys.length) → ∃ t, Still C L tys (rightNested x (l.map fun y => (y.1.2.2, y.2))) false t ∧
      ∀ f, Ev C L (castChain x l) ⟨tys, f⟩ ⟨rightNested x (l.map fun y => (y.1.2.2, y.2)), ⟨tys, f⟩, .ok t⟩
  | l, x, h, hx, hl => by
    obtain ⟨s, hs⟩ := arg_still (C := C) (L := L) hx
    match l with
    | [] => exact ⟨s, hs, fun f => by simpa [castChain, rightNested] using hs f⟩
    | ((p, u, op), y) :: l =>
      obtain ⟨t, h1, h2⟩ := chain_ev (C := C) (L := L) l y (fun z hz => h z (List.mem_cons_of_mem _ hz)) (hl _ (List.mem_cons_self ..))
        fun z hz => hl z (List.mem_cons_of_mem _ hz)
      obtain ⟨_, ha, hb, hc⟩ := addOps_mem (h _ (List.mem_cons_self ..))
      have hn := rightNested_not_lit y (l.map fun y => (y.1.2.2, y.2))
      refine ⟨_, still_bin hb hs h1 (by simp) hn, fun f => ?_⟩
      have := ev_argCast ha hs (by simpa using h2 f) h1 hn (hc L t)
      simpa [castChain, rightNested] using this

/-- **C58**, what the code does: the chain means `x₀ op₁ (x₁ op₂ (x₂ …))`. -/
theorem C58_right_nested (C : Ctx) (name : Str) (as : List MacroToken) (x : Nat) (l : List ((Str × UnOp × BinOp) × Nat)) (m : FnMacro)
    (hl : ∀ y ∈ l, y.1 ∈ addOps) (hm : FnMacro.parse C.env name as (chain x (l.map fun y => (y.1.1, y.2))) = .ok m)
    (hx : x < m.args.length) (hy : ∀ y ∈ l, y.2 < m.args.length) (r : CgRes GenFn) :
    m.Generates C r ↔ FnMacro.Generates C ⟨name, m.args, .expr (rightNested x (l.map fun y => (y.1.2.2, y.2)))⟩ r := by
  have hb : MacroBody.parse C.env (chain x (l.map fun y => (y.1.1, y.2))) = some (.expr (castChain x l), []) := by
    have := chain_parse C.env l x hl
    match l with
    | [] => exact body_of_prec2 (by simp) this
    | _ :: _ => exact body_of_prec2 (by simp) this
  have e := fnParse_ok hm hb
  generalize m.args = args at *
  subst e
  cases ha : argTypes C name args with
  | error z =>
    have h1 : ∀ e, FnMacro.Generates C ⟨name, args, e⟩ (.error z) := fun e => ⟨0, fun n _ => by
      unfold FnMacro.generate; rw [ha]⟩
    exact ⟨fun h => (h1 _).unique h ▸ h1 _, fun h => (h1 _).unique h ▸ h1 _⟩
  | ok tys =>
    have hlen : tys.length = args.length := argTypes_length ha
    obtain ⟨t, h1, h2⟩ := chain_ev (C := C) (L := fnLoc args) l x hl (hlen ▸ hx) fun y h => hlen ▸ hy y h
    have g1 := fnGenerates (name := name) (args := args) ha (h2 false)
    have h1' := h1 false
    simp only [Bool.or_false] at h1'
    have g2 := fnGenerates (name := name) (args := args) ha h1'
    exact ⟨fun h => g1.unique h ▸ g2, fun h => g2.unique h ▸ g1⟩

/-- `(x) - (y) - (z)` meets the hypotheses. -/
example : chain 0 ([((c!"-", UnOp.minus, BinOp.sub), 1), ((c!"-", .minus, .sub), 2)].map fun y => (y.1.1, y.2)) =
    [.punct c!"(", .arg 0, .punct c!")", .punct c!"-", .punct c!"(", .arg 1, .punct c!")", .punct c!"-", .punct c!"(", .arg 2, .punct c!")"] := by
  decide +kernel

example : pipeFn 20 (Ctx.unit asciiEnv) [.defineFn c!"F" [c!"x", c!"y", c!"z"]
      [c!"(", c!"x", c!")", c!"-", c!"(", c!"y", c!")", c!"-", c!"(", c!"z", c!")"]] c!"F" =
    .gen (.ok (.macro c!"F" [q!"$ x : expr", q!"$ y : expr", q!"$ z : expr"] q!"$ x - ( $ y - $ z )")) := by decide +kernel

/-- So does `x - (y) - (z)`. -/
example : pipeFn 20 (Ctx.unit asciiEnv) [.defineFn c!"F" [c!"x", c!"y", c!"z"]
      [c!"x", c!"-", c!"(", c!"y", c!")", c!"-", c!"(", c!"z", c!")"]] c!"F" =
    .gen (.ok (.macro c!"F" [q!"$ x : expr", q!"$ y : expr", q!"$ z : expr"] q!"$ x - ( $ y - $ z )")) := by decide +kernel

/-- **C58** is false of the code: `(x) - (y) - (z)` becomes `$x - ($y - $z)`. -/
theorem C58_false : ¬ C58_statement := by
  intro h
  have g1 := gen_xyz 9 (.bin (.bin (.var (.arg 0)) .sub (.var (.arg 1))) .sub (.var (.arg 2))) (by decide +kernel)
    (out := .macro c!"F" [q!"$ x : expr", q!"$ y : expr", q!"$ z : expr"] q!"$ x - $ y - $ z") (by decide +kernel)
  have g2 := gen_xyz 9 (.cast (.ident (.arg 0) false) (.un .minus (.cast (.ident (.arg 1) false) (.un .minus (.var (.arg 2)))))) (by decide +kernel)
    (out := .macro c!"F" [q!"$ x : expr", q!"$ y : expr", q!"$ z : expr"] q!"$ x - ( $ y - $ z )") (by decide +kernel)
  have := (h (Ctx.unit asciiEnv) c!"F" xyz 0 [((c!"-", .minus, .sub), 1), ((c!"-", .minus, .sub), 2)] ⟨c!"F", [c!"x", c!"y", c!"z"],
    .expr (.cast (.ident (.arg 0) false) (.un .minus (.cast (.ident (.arg 1) false) (.un .minus (.var (.arg 2))))))⟩ _
    (by decide) (by kernel_rfl) g1).unique g2
  revert this
  decide +kernel

/-- **C58** for chains of at most one operator. -/
theorem C58_partial (C : Ctx) (name : Str) (as : List MacroToken) (x : Nat) (l : List ((Str × UnOp × BinOp) × Nat)) (m : FnMacro)
    (out : GenFn) (hl : ∀ y ∈ l, y.1 ∈ addOps) (h1 : l.length ≤ 1)
    (hm : FnMacro.parse C.env name as (chain x (l.map fun y => (y.1.1, y.2))) = .ok m)
    (hx : x < m.args.length) (hy : ∀ y ∈ l, y.2 < m.args.length)
    (h : FnMacro.Generates C ⟨name, m.args, .expr (leftNested (.var (.arg x)) (l.map fun y => (y.1.2.2, y.2)))⟩ (.ok out)) :
    m.Generates C (.ok out) := by
  rw [C58_right_nested C name as x l m hl hm hx hy]
  match l, h1 with
  | [], _ => exact h
  | [_], _ => exact h

end CMacro
