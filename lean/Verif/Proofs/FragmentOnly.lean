import Verif.Proofs.Fragment

/-!
# Parameters that are not identifiers
-/

namespace CMacro
open Spec

section
variable {C : Ctx} {L : Loc} {f : Expr → LState → Fin Expr} {S : Nat → Prop}

/-- Only these parameters are known to be identifiers. -/
def LState.Only (S : Nat → Prop) (st : LState) : Prop := ∀ i, st.IsIdent i → S i

theorem Only.set {st : LState} {i : Nat} {a : ArgTy} (h : st.Only S) (ha : a = .ident → S i) : (st.setArg i a).Only S := by
  intro j hj
  unfold LState.IsIdent LState.setArg at hj
  rw [List.getElem?_set] at hj
  split at hj
  · rename_i hij
    subst hij
    split at hj
    · exact ha (by simpa using hj)
    · cases hj
  · exact h j hj

theorem Only.export {st : LState} (h : st.Only S) : st.export.Only S := h

theorem concat_only : ∀ {ids : List IdentCont} {st : LState}, (∀ i, IdentCont.arg i ∈ ids → S i) → st.Only S → (finishConcat ids st).1.Only S
  | [], _, _, h => h
  | .plain _ :: ids, _, hi, h => concat_only (ids := ids) (fun i h => hi i (List.mem_cons_of_mem _ h)) h
  | .int n :: ids, _, hi, h => by simp only [finishConcat]; split <;> exact h
  | .arg j :: ids, _, hi, h => by
    simp only [finishConcat]
    split
    · exact h
    · exact concat_only (fun i h => hi i (List.mem_cons_of_mem _ h)) (Only.set h fun _ => hi j (by simp))

theorem name_only {n : IdentExpr} {st : LState} (hi : ∀ i ∈ pasteArgs n, S i) (h : st.Only S) : (n.finish st).1.Only S := by
  cases n with
  | concat ids =>
    refine concat_only (fun i hm => hi i ?_) h
    simp only [pasteArgs, List.mem_filterMap]
    exact ⟨_, hm, rfl⟩
  | _ => exact h

theorem fromRust_pasted {p : Option RPath} : ∀ {r : RTy} {t : Ty}, Ty.fromRust p r = .ok t → tyPasted t = []
  | .ptr m r, t, h => by
    simp only [Ty.fromRust] at h
    split at h
    · rename_i u hu
      cases h
      have := fromRust_pasted hu
      cases m <;> exact this
    · cases h
  | .unit, t, h | .verbatim _, t, h => by cases h; rfl
  | .path q p, t, h => by
    simp only [Ty.fromRust] at h
    repeat' split at h
    all_goals (cases h; rfl)
  | .other _, t, h => by cases h

theorem ty_only : ∀ {t : Ty} {st : LState}, (∀ i ∈ tyPasted t, S i) → st.Only S →
    (t.finish C st).st.Only S ∧ ∀ i ∈ tyPasted (t.finish C st).tree, S i
  | .builtIn _, _, hi, h => ⟨h, hi⟩
  | .path _ _, _, hi, h => ⟨h, hi⟩
  | .ptr t, _, hi, h => ty_only (t := t) hi h
  | .qualified t q, _, hi, h => ty_only (t := t) hi h
  | .ident n s, st, hi, h => by
    have hn := name_only (n := n) (st := st) hi h
    simp only [Ty.finish]
    generalize n.finish st = R at *
    rcases R with ⟨s', r | r⟩
    · exact ⟨hn, hi⟩
    · simp only at hn ⊢
      repeat' split
      all_goals first | exact ⟨hn, hi⟩ | exact ⟨hn, by rw [fromRust_pasted (by assumption)]; simp⟩

theorem var_only {n : IdentExpr} {st : LState} (hi : ∀ i ∈ pasteArgs n, S i) (h : st.Only S) : (finishVar C n st).1.Only S := by
  have hn := name_only (n := n) (st := st) hi h
  simp only [finishVar]
  generalize n.finish st = R at *
  rcases R with ⟨s', r | r⟩
  · exact hn
  · simp only at hn ⊢
    repeat' split
    all_goals exact hn

theorem infer_only : ∀ (es : List Expr) (ts : List RTy) (st : LState), st.Only S → (inferArgs C es ts st).1.Only S
  | [], _, st, h => h
  | _ :: _, [], st, h => h
  | a :: as, t :: ts, st, h => by
    simp only [inferArgs]
    split
    · exact infer_only as ts st h
    · split
      · exact h
      · split
        · exact infer_only as ts _ (Only.set h (by simp))
        · exact h
      · exact infer_only as ts st h

theorem offsetof_only {a : Expr} {t : ArgTy} {st : LState} (ht : t ≠ .ident) (h : st.Only S) : (offsetofArg a t st).1.Only S := by
  unfold offsetofArg
  repeat' split
  all_goals first | exact h | exact Only.set h fun he => absurd he ht

theorem callee_only {n : IdentExpr} {es : List Expr} {st : LState} (h : st.Only S) : (finishCallee C n es st).1.Only S := by
  cases n with
  | plain id =>
    simp only [finishCallee]
    split
    · split
      · split
        · exact h
        · have := infer_only (C := C) es (by assumption) st h
          generalize inferArgs C es _ st = R at *
          rcases R with ⟨s, r | r⟩ <;> exact this
      · exact h
    · have he : st.export.Only S := h
      split
      · split
        · rename_i a b
          have h1 := offsetof_only (a := a) (t := .ty) (by simp) he
          generalize offsetofArg a .ty st.export = R at *
          rcases R with ⟨s, r | r⟩
          · exact h1
          · have h2 := offsetof_only (a := b) (t := .tt) (by simp) h1
            simp only at h2 ⊢
            generalize offsetofArg b .tt s = R at *
            rcases R with ⟨s', r | r⟩ <;> exact h2
        · exact he
      · exact he
  | _ => exact h

theorem stringify_only {n : IdentExpr} {st : LState} (h : st.Only S) : (finishStringify n st).1.Only S := by
  unfold finishStringify
  repeat' split
  all_goals first | exact h | exact Only.set h (by simp)

theorem effects_only {op : BinOp} {l r : Expr} {st : LState} (hi : ∀ i ∈ memberArg op r, S i) (h : st.Only S) :
    (binaryEffects op l r st).1.Only S := by
  unfold binaryEffects
  dsimp only
  have key : ∀ s x, (if op = BinOp.memberAccess then
      match r.asArg with
      | none => (st, Except.ok ())
      | some i =>
        match st.argTy i with
        | none => (st, Except.error CgFail.panic)
        | some _ => (st.setArg i .ident, Except.ok ())
    else (st, Except.ok ()) : LState × CgRes Unit) = (s, x) → s.Only S := by
    intro s x hx
    split at hx
    · rename_i ho
      subst ho
      split at hx
      · cases hx; exact h
      · rename_i i ha
        have : S i := by
          cases r with
          | var n => cases n <;> simp_all [Expr.asArg, memberArg, selfArg]
          | _ => simp [Expr.asArg] at ha
        split at hx
        · cases hx; exact h
        · cases hx; exact Only.set h fun _ => this
    · cases hx; exact h
  split
  · rename_i s x hx
    exact key _ _ hx
  · rename_i s hx
    have := key _ _ hx
    split <;> exact this

/-- Only these parameters stand for an identifier, at this node. -/
def NodeOnly (S : Nat → Prop) : Expr → Prop
  | .var n => ∀ i ∈ pasteArgs n, S i
  | .call n _ => ∀ i ∈ pasteArgs n, S i
  | .cast ty _ => ∀ i ∈ tyPasted ty, S i
  | .sizeOf ty => ∀ i ∈ tyPasted ty, S i
  | .bin _ op r => (∀ i ∈ memberArg op r, S i) ∧ (op = .memberAccess → ∃ n, r = .var n)
  | _ => True

mutual
theorem all_only : ∀ {e : Expr}, (∀ i ∈ exprIdents e, S i) → MembersNamed e → e.All (NodeOnly S)
  | .var n, h, _ => h
  | .call n as, h, hm => ⟨fun i hi => h i (by simp [exprIdents, hi]), allL_only (fun i hi => h i (by simp [exprIdents, hi])) hm⟩
  | .cast ty e, h, hm => ⟨fun i hi => h i (by simp [exprIdents, hi]), all_only (fun i hi => h i (by simp [exprIdents, hi])) hm⟩
  | .lit _, _, _ => trivial
  | .stringify _, _, _ => trivial
  | .concatStr ps, h, hm => ⟨trivial, allL_only h hm⟩
  | .sizeOf ty, h, _ => h
  | .un _ e, h, hm => ⟨trivial, all_only (e := e) h hm⟩
  | .bin l op r, h, hm => ⟨⟨fun i hi => h i (by simp [exprIdents, hi]), hm.1⟩, all_only (fun i hi => h i (by simp [exprIdents, hi])) hm.2.1,
      all_only (fun i hi => h i (by simp [exprIdents, hi])) hm.2.2⟩
  | .ternary c t u, h, hm => ⟨trivial, all_only (fun i hi => h i (by simp [exprIdents, hi])) hm.1,
      all_only (fun i hi => h i (by simp [exprIdents, hi])) hm.2.1, all_only (fun i hi => h i (by simp [exprIdents, hi])) hm.2.2⟩
theorem allL_only : ∀ {es : List Expr}, (∀ i ∈ exprsIdents es, S i) → MembersNamedL es → Expr.AllL (NodeOnly S) es
  | [], _, _ => trivial
  | e :: es, h, hm => ⟨all_only (fun i hi => h i (by simp [exprsIdents, hi])) hm.1, allL_only (fun i hi => h i (by simp [exprsIdents, hi])) hm.2⟩
end

/-- What finishing does not do: find other parameters that are identifiers. -/
structure KeepsOnly (S : Nat → Prop) (f : Expr → LState → Fin Expr) : Prop where
  keep : ∀ e st, e.All (NodeOnly S) → st.Only S → (f e st).st.Only S ∧ (f e st).tree.All (NodeOnly S)
  var : ∀ n st, (f (.var n) st).tree = .var n

theorem args_only (h : KeepsOnly S f) : ∀ (es : List Expr) (st : LState), Expr.AllL (NodeOnly S) es → st.Only S →
    (finishArgs f es st).2.1.Only S ∧ Expr.AllL (NodeOnly S) (finishArgs f es st).1
  | [], _, _, hs => ⟨hs, trivial⟩
  | e :: es, st, he, hs => by
    have h1 := h.keep e st he.1 hs
    simp only [finishArgs]
    generalize f e st = R at *
    rcases R with ⟨x, s, r | r⟩
    · exact ⟨h1.1, h1.2, he.2⟩
    · have h2 := args_only h es s he.2 h1.1
      exact ⟨h2.1, h1.2, h2.2⟩

theorem flush_only (cur : Option (List UInt8)) : Expr.AllL (NodeOnly S) (flush cur) := by
  cases cur with
  | none => exact trivial
  | some b => exact ⟨trivial, trivial⟩

theorem parts_only (h : KeepsOnly S f) : ∀ (es : List Expr) (cur : Option (List UInt8)) (st : LState), Expr.AllL (NodeOnly S) es → st.Only S →
    (finishParts f es cur st).2.1.Only S ∧ Expr.AllL (NodeOnly S) (finishParts f es cur st).1 ∧
      ∀ new, (finishParts f es cur st).2.2 = .ok new → Expr.AllL (NodeOnly S) new
  | [], cur, _, _, hs => ⟨hs, trivial, fun new hn => by simp only [finishParts] at hn; cases hn; exact flush_only cur⟩
  | e :: es, cur, st, he, hs => by
    have h1 := h.keep e st he.1 hs
    simp only [finishParts]
    generalize f e st = R at *
    rcases R with ⟨x, s, r | r⟩
    · exact ⟨h1.1, ⟨h1.2, he.2⟩, by simp⟩
    · simp only at h1 ⊢
      split
      · split
        · exact ⟨h1.1, ⟨h1.2, he.2⟩, by simp⟩
        · rename_i bs _
          have ih := parts_only h es (some (cur.getD [] ++ bs)) s he.2 h1.1
          generalize finishParts f es (some (cur.getD [] ++ bs)) s = R at *
          exact ⟨ih.1, ⟨h1.2, ih.2.1⟩, ih.2.2⟩
      · split
        · exact ⟨h1.1, ⟨h1.2, he.2⟩, by simp⟩
        · have ih := parts_only h es none s he.2 h1.1
          generalize finishParts f es none s = R at *
          rcases R with ⟨q, s', r | r⟩
          · exact ⟨ih.1, ⟨h1.2, ih.2.1⟩, by simp⟩
          · refine ⟨ih.1, ⟨h1.2, ih.2.1⟩, fun new hn => ?_⟩
            cases hn
            exact (flush_only cur).append ⟨h1.2, ih.2.2 r rfl⟩

theorem condition_only (h : KeepsOnly S f) (e : Expr) (st : LState) (he : e.All (NodeOnly S)) (hs : st.Only S) :
    (finishCondition f e st).st.Only S ∧ (finishCondition f e st).tree.All (NodeOnly S) := by
  have h1 := h.keep e st he hs
  simp only [finishCondition]
  generalize f e st = R at *
  rcases R with ⟨x, s, r | r⟩
  · exact h1
  · simp only at h1 ⊢
    split
    · exact ⟨h1.1, ⟨by simp [NodeOnly, memberArg], h1.2, trivial⟩⟩
    · exact h1

theorem product_only {ty : Ty} {x e : Expr} (h : castAsProduct ty x = some e) (hx : (Expr.cast ty x).All (NodeOnly S)) : e.All (NodeOnly S) := by
  unfold castAsProduct at h
  split at h
  · split at h
    · cases h
      exact ⟨⟨by simp [memberArg], by simp⟩, ⟨hx.1, hx.2.1⟩, hx.2.2.2⟩
    · cases h
  · cases h

theorem binary_only {ty : Ty} {x e : Expr} (h : castAsBinary C ty x = some e) (hx : (Expr.cast ty x).All (NodeOnly S)) : e.All (NodeOnly S) := by
  unfold castAsBinary at h
  split at h
  · split at h
    · rename_i op _ _
      cases op <;> cases h
      all_goals exact ⟨⟨by simp [memberArg], by simp⟩, hx.1, hx.2.2⟩
    · cases h
  · cases h

theorem unary_only {op : UnOp} {x e : Expr} {t : Option Ty} (h : foldUnary C op x t = .ok e) (hx : x.All (NodeOnly S)) : e.All (NodeOnly S) := by
  unfold foldUnary at h
  split at h
  all_goals first
    | (cases h; first | exact trivial | exact ⟨trivial, hx⟩)
    | (split at h <;> (cases h; first | exact ⟨trivial, hx⟩ | refine ⟨⟨by simp [memberArg], by simp⟩, hx, ?_⟩)
       unfold zeroOf; split <;> exact trivial)
    | cases h

theorem adjust_only {op : BinOp} {l r : Expr} {lt rt : Option Ty} (hb : NodeOnly S (.bin l op r)) (hl : l.All (NodeOnly S)) (hr : r.All (NodeOnly S)) :
    NodeOnly S (.bin (adjustOperands op l r lt rt).1 op (adjustOperands op l r lt rt).2.1) ∧
    (adjustOperands op l r lt rt).1.All (NodeOnly S) ∧ (adjustOperands op l r lt rt).2.1.All (NodeOnly S) := by
  have cast : ∀ {t : Ty} {e : Expr}, maxTyCast e = some t → ∀ i ∈ tyPasted t, S i := by
    intro t e h
    unfold maxTyCast at h
    repeat' split at h
    all_goals first | (cases h; simp [tyPasted]; done) | cases h
  unfold adjustOperands
  repeat' split
  all_goals first
    | exact ⟨hb, hl, hr⟩
    | exact ⟨hb, trivial, hr⟩
    | exact ⟨⟨by simp [memberArg], fun h => by obtain ⟨n, hn⟩ := hb.2 h; cases hn⟩, hl, trivial⟩
    | exact ⟨hb, ⟨cast (by assumption), hl⟩, hr⟩
    | (rename_i ho _ _ _
       refine ⟨⟨by rcases ho with rfl | rfl <;> simp [memberArg], by rcases ho with rfl | rfl <;> simp⟩, hl, cast (by assumption), hr⟩)

theorem step_only (h : KeepsOnly S f) : KeepsOnly S (finishStep C L f) := by
  refine ⟨fun e st he hs => ?_, fun n st => rfl⟩
  cases e with
  | var n => exact ⟨var_only he hs, he⟩
  | stringify n => exact ⟨stringify_only hs, trivial⟩
  | sizeOf t =>
    have ht := ty_only (C := C) (t := t) (st := st) he hs
    simp only [finishStep]
    generalize t.finish C st = R at *
    rcases R with ⟨ty, s, r | r⟩ <;> exact ht
  | lit l =>
    cases l with
    | char c =>
      simp only [finishStep]
      split
      · rename_i t ht
        refine ⟨hs, ?_, trivial⟩
        unfold LitChar.finish at ht
        split at ht
        · cases ht; simp [NodeOnly, tyPasted]
        · cases ht; simp [NodeOnly, tyPasted]
        · cases ht; simp [NodeOnly, tyPasted]
        · cases ht; simp [NodeOnly, tyPasted]
        · unfold finishWchar at ht
          have hw := (ty_only (C := C) (t := wcharTy) (st := st) (by simp [wcharTy, tyPasted, pasteArgs]) hs).2
          generalize Ty.finish C wcharTy st = R at *
          rcases R with ⟨u, s, r | r⟩
          · cases ht
          · cases ht; exact hw
      · exact ⟨hs, trivial⟩
    | _ => exact ⟨hs, trivial⟩
  | cast ty x =>
    have ht := ty_only (C := C) (t := ty) (st := st) he.1 hs
    simp only [finishStep]
    generalize ty.finish C st = R at *
    rcases R with ⟨ty, s, r | r⟩
    · simp only at ht ⊢
      split
      · rename_i e _ hc
        exact h.keep e s (product_only hc ⟨ht.2, he.2⟩) ht.1
      · exact ⟨ht.1, ht.2, he.2⟩
    · simp only at ht ⊢
      have hx := h.keep x s he.2 ht.1
      generalize f x s = R at *
      rcases R with ⟨x', s', r | r⟩
      · simp only at hx ⊢
        split
        · rename_i e _ hc
          exact h.keep e s' (product_only hc ⟨ht.2, hx.2⟩) hx.1
        · exact ⟨hx.1, ht.2, hx.2⟩
      · simp only at hx ⊢
        split
        · rename_i e hc
          exact h.keep e s' (binary_only hc ⟨ht.2, hx.2⟩) hx.1
        · split
          · exact h.keep x' s' hx.2 hx.1
          · exact ⟨hx.1, ht.2, hx.2⟩
  | call name args =>
    simp only [finishStep]
    split
    · exact ⟨hs, he⟩
    · have hn := name_only (n := name) (st := st) he.1 hs
      generalize name.finish st = R at *
      rcases R with ⟨s, r | r⟩
      · exact ⟨hn, he⟩
      · simp only at hn ⊢
        have ha := args_only h args s he.2 hn
        generalize finishArgs f args s = R at *
        rcases R with ⟨as, s', z | z⟩
        · exact ⟨ha.1, he.1, ha.2⟩
        · simp only at ha ⊢
          have hc := callee_only (C := C) (n := name) (es := as) ha.1
          generalize finishCallee C name as s' = R at *
          exact ⟨hc, he.1, ha.2⟩
  | concatStr parts =>
    simp only [finishStep]
    have := parts_only h parts none st he.2 hs
    generalize finishParts f parts none st = R at *
    rcases R with ⟨x, y, z | z⟩
    · exact ⟨this.1, trivial, this.2.1⟩
    · rcases z with _ | ⟨q, _ | ⟨q', l⟩⟩
      · exact ⟨this.1, trivial, trivial⟩
      · exact h.keep q y (this.2.2 _ rfl).1 this.1
      · exact ⟨this.1, trivial, this.2.2 _ rfl⟩
  | un op x =>
    simp only [finishStep]
    have hx := h.keep x st he.2 hs
    generalize f x st = R at *
    rcases R with ⟨x', s, r | r⟩
    · exact ⟨hx.1, trivial, hx.2⟩
    · simp only at hx ⊢
      split
      · exact ⟨hx.1, trivial, hx.2⟩
      · split
        · exact ⟨hx.1, trivial, hx.2⟩
        · rename_i hu
          exact ⟨hx.1, unary_only hu hx.2⟩
  | bin l op x =>
    simp only [finishStep]
    have hl := h.keep l st he.2.1 hs
    generalize f l st = R at *
    rcases R with ⟨l', s, r | r⟩
    · exact ⟨hl.1, he.1, hl.2, he.2.2⟩
    · simp only at hl ⊢
      have hx := h.keep x s he.2.2 hl.1
      have hn : NodeOnly S (.bin l' op (f x s).tree) := by
        refine ⟨?_, fun ho => ?_⟩
        · by_cases ho : op = .memberAccess
          · obtain ⟨n, rfl⟩ := he.1.2 ho
            rw [h.var]; exact he.1.1
          · intro i hi
            unfold memberArg at hi
            split at hi
            · exact absurd rfl ho
            · cases hi
        · obtain ⟨n, rfl⟩ := he.1.2 ho
          rw [h.var]; exact ⟨n, rfl⟩
      generalize f x s = R at *
      rcases R with ⟨x', s', r' | r'⟩
      · exact ⟨hx.1, hn, hl.2, hx.2⟩
      · simp only at hx hn ⊢
        have hb := effects_only (l := l') hn.1 hx.1
        generalize binaryEffects op l' x' s' = R at *
        rcases R with ⟨s2, r2 | r2⟩
        · exact ⟨hb, hn, hl.2, hx.2⟩
        · simp only at hb ⊢
          have ha := adjust_only (lt := r) (rt := r') hn hl.2 hx.2
          generalize adjustOperands op l' x' r r' = R at *
          rcases R with ⟨l2, x2, lt, rt⟩
          simp only at ha ⊢
          split
          · exact ⟨hb, ha⟩
          · split
            · exact ⟨hb, ha⟩
            · rename_i e hf
              refine h.keep e s2 ?_ hb
              unfold foldBinary at hf
              repeat' split at hf
              all_goals first | (cases hf; exact trivial) | cases hf
            · exact ⟨hb, ha⟩
  | ternary c t u =>
    simp only [finishStep]
    have hc := condition_only h c st he.2.1 hs
    generalize finishCondition f c st = R at *
    rcases R with ⟨c', s, r | r⟩
    · exact ⟨hc.1, trivial, hc.2, he.2.2⟩
    · simp only at hc ⊢
      have ht := h.keep t s he.2.2.1 hc.1
      generalize f t s = R at *
      rcases R with ⟨t', s', r' | r'⟩
      · exact ⟨ht.1, trivial, hc.2, ht.2, he.2.2.2⟩
      · simp only at ht ⊢
        have hu := h.keep u s' he.2.2.2 ht.1
        generalize f u s' = R at *
        rcases R with ⟨u', s2, r2 | r2⟩
        · exact ⟨hu.1, trivial, hc.2, ht.2, hu.2⟩
        · exact ⟨hu.1, trivial, hc.2, ht.2, hu.2⟩

theorem expr_only : ∀ n, KeepsOnly S (Expr.finish C L n)
  | 0 => ⟨fun _ _ he hs => ⟨hs, he⟩, fun _ _ => rfl⟩
  | n + 1 => step_only (expr_only n)

/-! ## Statements -/

theorem outputs_only (h : KeepsOnly S f) : ∀ (os : List (Dir × RegConstraint × Expr)) (st : LState), (∀ o ∈ os, o.2.2.All (NodeOnly S)) → st.Only S →
    (finishOutputs f os st).2.1.Only S
  | [], _, _, hs => hs
  | (d, c, e) :: os, st, ho, hs => by
    have h1 := h.keep e st (ho (d, c, e) (by simp)) hs
    simp only [finishOutputs]
    generalize f e st = R at *
    rcases R with ⟨x, s, r | r⟩
    · exact h1.1
    · exact outputs_only h os s (fun o hm => ho o (List.mem_cons_of_mem _ hm)) h1.1

theorem inputs_only (h : KeepsOnly S f) : ∀ (os : List (RegConstraint × Expr)) (st : LState), (∀ o ∈ os, o.2.All (NodeOnly S)) → st.Only S →
    (finishInputs f os st).2.1.Only S
  | [], _, _, hs => hs
  | (c, e) :: os, st, ho, hs => by
    have h1 := h.keep e st (ho (c, e) (by simp)) hs
    simp only [finishInputs]
    generalize f e st = R at *
    rcases R with ⟨x, s, r | r⟩
    · exact h1.1
    · exact inputs_only h os s (fun o hm => ho o (List.mem_cons_of_mem _ hm)) h1.1

theorem declArgs_only : ∀ (as : List (Ty × IdentExpr)) (st : LState), (∀ i ∈ as.flatMap (fun a => tyPasted a.1), S i) → st.Only S →
    (finishDeclArgs C as st).2.1.Only S
  | [], _, _, hs => hs
  | (t, n) :: as, st, hi, hs => by
    simp only [List.flatMap_cons, List.mem_append] at hi
    have h1 := ty_only (C := C) (t := t) (st := st) (fun i h => hi i (.inl h)) hs
    simp only [finishDeclArgs]
    generalize t.finish C st = R at *
    rcases R with ⟨x, s, r | r⟩
    · exact h1.1
    · exact declArgs_only as s (fun i h => hi i (.inr h)) h1.1

theorem fnDecl_only (d : FunctionDecl) (st : LState) (hi : ∀ i ∈ stmtIdents (.fnDecl d), S i) (hs : st.Only S) : (d.finish C st).2.1.Only S := by
  simp only [stmtIdents, List.mem_append] at hi
  have h1 := ty_only (C := C) (t := d.retTy) (st := st) (fun i h => hi i (.inl h)) hs
  simp only [FunctionDecl.finish]
  generalize d.retTy.finish C st = R at *
  rcases R with ⟨x, s, r | r⟩
  · exact h1.1
  · simp only at h1 ⊢
    cases hd : d.name with
    | arg j =>
      simp only [hd] at hi ⊢
      cases ha : s.argTy j with
      | none => exact h1.1
      | some a => exact declArgs_only d.args _ (fun i h => hi i (.inr (.inr h))) (Only.set h1.1 fun _ => hi j (.inr (.inl (by simp [selfArg]))))
    | _ => exact declArgs_only d.args _ (fun i h => hi i (.inr (.inr h))) h1.1

theorem varDecl_only (h : KeepsOnly S f) (d : VarDecl) (st : LState) (hi : ∀ i ∈ stmtIdents (.varDecl d), S i) (hm : MembersNamed d.rhs) (hs : st.Only S) :
    (d.finish C f st).2.1.Only S := by
  simp only [stmtIdents, List.mem_append] at hi
  have h1 := ty_only (C := C) (t := d.ty) (st := st) (fun i h => hi i (.inl h)) hs
  simp only [VarDecl.finish]
  generalize d.ty.finish C st = R at *
  rcases R with ⟨x, s, r | r⟩
  · exact h1.1
  · simp only at h1 ⊢
    have hn := name_only (n := d.name) (fun i h => hi i (.inr (.inl h))) h1.1
    generalize d.name.finish s = R at *
    rcases R with ⟨s', r' | r'⟩
    · exact hn
    · simp only at hn ⊢
      have hx := h.keep d.rhs s' (all_only (fun i h => hi i (.inr (.inr h))) hm) hn
      generalize f d.rhs s' = R at *
      rcases R with ⟨y, s2, r2 | r2⟩ <;> exact hx.1

mutual
theorem stmt_only (h : KeepsOnly S f) : ∀ (s : Stmt) (st : LState), (∀ i ∈ stmtIdents s, S i) → StmtMembersNamed s → st.Only S →
    (s.finish C f st).2.1.Only S
  | .asm a, st, hi, hm, hs => by
    simp only [stmtIdents, List.mem_append, List.mem_flatMap] at hi
    simp only [Stmt.finish, Asm.finish]
    have ho := outputs_only h a.outputs st (fun o hmem => all_only (fun i h => hi i (.inl ⟨o, hmem, h⟩)) (hm.1 o hmem)) hs
    generalize finishOutputs f a.outputs st = R at *
    rcases R with ⟨os, s, r | r⟩
    · exact ho
    · simp only at ho ⊢
      have hn := inputs_only h a.inputs s (fun o hmem => all_only (fun i h => hi i (.inr ⟨o, hmem, h⟩)) (hm.2 o hmem)) ho
      generalize finishInputs f a.inputs s = R at *
      rcases R with ⟨ns, s', r | r⟩
      · exact hn
      · simp only at hn ⊢
        split <;> exact hn
  | .expr e, st, hi, hm, hs => by
    rw [stmtIdents] at hi
    simp only [Stmt.finish]
    have he := h.keep e st (all_only hi hm) hs
    generalize f e st = R at *
    rcases R with ⟨x, s, r | r⟩ <;> exact he.1
  | .fnDecl d, st, hi, hm, hs => fnDecl_only d st hi hs
  | .varDecl d, st, hi, hm, hs => varDecl_only h d st hi hm hs
  | .block ss, st, hi, hm, hs => by
    rw [stmtIdents] at hi
    exact stmts_only h ss st hi hm hs
  | .ite c t u, st, hi, hm, hs => by
    simp only [stmtIdents, List.mem_append] at hi
    simp only [Stmt.finish]
    have he := condition_only h c st (all_only (fun i h => hi i (.inl h)) hm.1) hs
    generalize finishCondition f c st = R at *
    rcases R with ⟨x, s, r | r⟩
    · exact he.1
    · simp only at he ⊢
      have ht := stmts_only h t s (fun i h => hi i (.inr (.inl h))) hm.2.1 he.1
      generalize Stmt.finishL C f t s = R at *
      rcases R with ⟨y, s', r' | r'⟩
      · exact ht
      · exact stmts_only h u s' (fun i h => hi i (.inr (.inr h))) hm.2.2 ht
  | .doWhile b c, st, hi, hm, hs => by
    simp only [stmtIdents, List.mem_append] at hi
    simp only [Stmt.finish]
    have hb := stmts_only h b st (fun i h => hi i (.inl h)) hm.1 hs
    generalize Stmt.finishL C f b st = R at *
    rcases R with ⟨y, s, r | r⟩
    · exact hb
    · simp only at hb ⊢
      have hc := condition_only h c s (all_only (fun i h => hi i (.inr h)) hm.2) hb
      generalize finishCondition f c s = R at *
      rcases R with ⟨z, s', r' | r'⟩ <;> exact hc.1
theorem stmts_only (h : KeepsOnly S f) : ∀ (ss : List Stmt) (st : LState), (∀ i ∈ stmtsIdents ss, S i) → StmtsMembersNamed ss → st.Only S →
    (Stmt.finishL C f ss st).2.1.Only S
  | [], _, _, _, hs => hs
  | s :: ss, st, hi, hm, hs => by
    simp only [stmtsIdents, List.mem_append] at hi
    simp only [Stmt.finishL]
    have h1 := stmt_only h s st (fun i h => hi i (.inl h)) hm.1 hs
    generalize s.finish C f st = R at *
    rcases R with ⟨x, s', r | r⟩
    · exact h1
    · exact stmts_only h ss s' (fun i h => hi i (.inr h)) hm.2 h1
end

theorem body_only (h : KeepsOnly S f) (b : MacroBody) (st : LState) (hi : ∀ i ∈ bodyIdents b, S i) (hm : BodyMembersNamed b) (hs : st.Only S) :
    (b.finish C f st).st.Only S := by
  cases b with
  | expr e => exact (h.keep e st (all_only hi hm) hs).1
  | stmt s =>
    have h1 := stmt_only (C := C) h s st hi hm hs
    simp only [MacroBody.finish]
    generalize s.finish C f st = R at *
    rcases R with ⟨x, s', r | r⟩ <;> exact h1

end

end CMacro
