import Verif.Spec.Assign
import Verif.Proofs.RustSyntax
import Verif.Proofs.Generate

/-!
# Proofs: assignments, increments and decrements
-/

namespace CMacro

open Spec

variable {σ V : Type} {C : Ctx} {args : List Str} {M : Machine σ V}

/-! ## Code generation leaves the expressions in question as they are, but for the sign of numbers -/

/-- The sign of a number becomes part of it. -/
def signed (op : UnOp) (e : Expr) : Expr :=
  match op, e with
  | .minus, .lit (.int i) => .lit (.int ⟨-i.value, negSuffix i.suffix⟩)
  | op, e => .un op e

mutual
/-- The same in an expression. -/
def settled : Expr → Expr
  | .un op e => signed op (settled e)
  | .bin l op r => .bin (settled l) op (settled r)
  | .call f as => .call f (settledAll as)
  | e => e
/-- The same in a list of arguments. -/
def settledAll : List Expr → List Expr
  | [] => []
  | a :: as => settled a :: settledAll as
end

theorem settledAll_length : ∀ as : List Expr, (settledAll as).length = as.length
  | [] => rfl
  | _ :: as => by rw [settledAll, List.length_cons, List.length_cons, settledAll_length as]

theorem signed_lit {op : UnOp} {e : Expr} {l : Lit} (h : signed op e = .lit l) : op = .minus ∧ ∃ i, e = .lit (.int i) ∧
    l = .int ⟨-i.value, negSuffix i.suffix⟩ := by
  unfold signed at h
  split at h
  · cases h; exact ⟨rfl, _, rfl, rfl⟩
  · cases h

theorem settled_lit : (e : Expr) → Assigning C args M e → {l : Lit} → settled e = .lit l → isNumber e = true ∧ ∃ i, l = .int i
  | .lit x, he, l, h => by
    cases x with
    | int i =>
      simp only [settled] at h
      cases h
      exact ⟨rfl, _, rfl⟩
    | _ => simp [Assigning] at he
  | .un op e, he, l, h => by
    rw [settled] at h
    obtain ⟨rfl, i, hi, rfl⟩ := signed_lit h
    simp only [Assigning] at he
    refine ⟨?_, _, rfl⟩
    have hm : minusOperand e := by simpa [cStep] using he.2
    have hn := (settled_lit e he.1 hi).1
    cases e with
    | lit x => rfl
    | un op e => simp [minusOperand, hn] at hm
    | _ => simp [isNumber] at hn
  | .var x, _, l, h => by simp [settled] at h
  | .bin _ _ _, _, l, h => by simp [settled] at h
  | .call _ _, _, l, h => by simp [settled] at h
  | .cast _ _, he, _, _ => by simp [Assigning] at he
  | .stringify _, he, _, _ => by simp [Assigning] at he
  | .concatStr _, he, _, _ => by simp [Assigning] at he
  | .sizeOf _, he, _, _ => by simp [Assigning] at he
  | .ternary _ _ _, he, _, _ => by simp [Assigning] at he

theorem settled_max {e : Expr} (he : Assigning C args M e) : maxTyCast (settled e) = none := by
  cases e with
  | var x =>
    cases x with
    | plain x =>
      simp only [Assigning, usableName, reservedNames] at he
      have h := he.1
      simp only [List.mem_cons, not_or] at h
      simp [settled, maxTyCast, h]
    | _ => rfl
  | un op e =>
    rw [settled]; unfold signed
    split <;> rfl
  | lit x => simp only [settled]; rfl
  | bin l op r => rfl
  | call f as => rfl
  | _ => simp [Assigning] at he

theorem adjust_same {op : BinOp} {l r : Expr} {lt rt : Option Ty} (hl : ∀ f, l ≠ .lit (.float f)) (hr : ∀ f, r ≠ .lit (.float f))
    (ml : maxTyCast l = none) (mr : maxTyCast r = none) : adjustOperands op l r lt rt = (l, r, lt, rt) := by
  unfold adjustOperands
  split
  · exact absurd rfl (hr _)
  · exact absurd rfl (hl _)
  · rw [ml]; split <;> rfl
  · rw [mr]; split <;> rfl
  · rfl

/-- A result that is a value leaves the tree settled. -/
def LeavesSettled (f : Expr → LState → Fin Expr) (e : Expr) : Prop := ∀ st e' st' t, f e st = ⟨e', st', .ok t⟩ → e' = settled e

theorem settles_args {f : Expr → LState → Fin Expr} : (as : List Expr) → (∀ a ∈ as, LeavesSettled f a) → (st : LState) →
    {as' : List Expr} → {st' : LState} → finishArgs f as st = (as', st', .ok ()) → as' = settledAll as
  | [], _, st, as', st', h => by simp only [finishArgs] at h; cases h; rfl
  | a :: as, hf, st, as', st', h => by
    simp only [finishArgs] at h
    obtain ⟨⟨a1, s1, r1⟩, h1⟩ : ∃ o, f a st = o := ⟨_, rfl⟩
    rw [h1] at h
    cases r1 with
    | error x => simp at h
    | ok t =>
      obtain ⟨⟨as1, s2, r2⟩, h2⟩ : ∃ o, finishArgs f as s1 = o := ⟨_, rfl⟩
      simp only [h2] at h
      cases h
      rw [settledAll, hf a (by simp) _ _ _ _ h1, settles_args as (fun b hb => hf b (by simp [hb])) s1 h2]

theorem settles_bin {f : Expr → LState → Fin Expr} {L : Loc} {l r : Expr} {op : BinOp} (hl : LeavesSettled f l) (hr : LeavesSettled f r)
    (fl : ∀ x, settled l ≠ .lit (.float x)) (fr : ∀ x, settled r ≠ .lit (.float x)) (ml : maxTyCast (settled l) = none)
    (mr : maxTyCast (settled r) = none)
    (hop : op = .memberAccess ∨ op.foldsInt = false ∨ ∀ i j, settled l = .lit (.int i) → settled r ≠ .lit (.int j)) :
    LeavesSettled (finishStep C L f) (.bin l op r) := by
  intro st e' st' t h
  simp only [finishStep] at h
  obtain ⟨⟨l1, s1, r1⟩, h1⟩ : ∃ o, f l st = o := ⟨_, rfl⟩
  rw [h1] at h
  cases r1 with
  | error x => simp at h
  | ok t1 =>
    obtain rfl := hl _ _ _ _ h1
    dsimp only at h
    obtain ⟨⟨l2, s2, r2⟩, h2⟩ : ∃ o, f r s1 = o := ⟨_, rfl⟩
    rw [h2] at h
    cases r2 with
    | error x => simp at h
    | ok t2 =>
      obtain rfl := hr _ _ _ _ h2
      dsimp only at h
      obtain ⟨⟨s3, r3⟩, h3⟩ : ∃ o, binaryEffects op (settled l) (settled r) s2 = o := ⟨_, rfl⟩
      rw [h3] at h
      cases r3 with
      | error x => simp at h
      | ok u =>
        dsimp only at h
        rw [adjust_same fl fr ml mr] at h
        dsimp only at h
        rw [settled]
        by_cases hm : op = .memberAccess
        · rw [if_pos hm] at h
          exact (congrArg Fin.tree h).symm
        · rw [if_neg hm] at h
          have hn : foldBinary op (settled l) (settled r) = none := by
            unfold foldBinary
            split
            · rename_i a b ha hb
              rcases hop with hop | hop | hop
              · exact absurd hop hm
              · simp [hop]
              · exact absurd hb (hop _ _ ha)
            · rename_i a b ha hb
              exact absurd ha (fl _)
            · rfl
          rw [hn] at h
          cases h; rfl

theorem all_of_assigning : {as : List Expr} → AssigningAll C args M as → ∀ a ∈ as, Assigning C args M a
  | [], _, _, h => by simp at h
  | a :: as, h, b, hb => by
    simp only [AssigningAll] at h
    rcases List.mem_cons.1 hb with rfl | hb
    · exact h.1
    · exact all_of_assigning h.2 b hb

theorem target_number {l : Expr} (h : isTarget l = true) : isNumber l = false := by
  unfold isTarget at h
  split at h <;> first | rfl | cases h

theorem fold_signed {op : UnOp} {e e' : Expr} {t : Option Ty} (hs : ∀ l, e = .lit l → ∃ i, l = .int i) (ho : op ≠ .plus ∧ op ≠ .not)
    (hf : foldUnary C op e t = .ok e') : e' = signed op e := by
  cases e with
  | lit l =>
    obtain ⟨i, rfl⟩ := hs l rfl
    cases op <;> simp [foldUnary] at ho hf ⊢ <;> exact hf.symm
  | _ => cases op <;> simp [foldUnary] at ho hf ⊢ <;> exact hf.symm

theorem finish_settles (L : Loc) : (n : Nat) → (e : Expr) → Assigning C args M e → LeavesSettled (Expr.finish C L n) e
  | 0, e, _ => by
    intro st e' st' t h
    simp [Expr.finish] at h
  | n + 1, e, he => by
    have ih := finish_settles L n
    show LeavesSettled (finishStep C L (Expr.finish C L n)) e
    have hv : ∀ x, LeavesSettled (Expr.finish C L n) (.var x) := by
      intro x st e' st' t h
      cases n with
      | zero => simp [Expr.finish] at h
      | succ n =>
        simp only [Expr.finish, finishStep] at h
        exact (congrArg Fin.tree h).symm
    cases e with
    | lit x =>
      cases x with
      | int i =>
        intro st e' st' t h
        simp only [finishStep] at h
        cases h; rfl
      | _ => simp [Assigning] at he
    | var x =>
      intro st e' st' t h
      simp only [finishStep] at h
      exact (congrArg Fin.tree h).symm
    | un op x =>
      simp only [Assigning] at he
      intro st e' st' t h
      simp only [finishStep] at h
      obtain ⟨⟨x1, s1, r1⟩, h1⟩ : ∃ o, Expr.finish C L n x st = o := ⟨_, rfl⟩
      rw [h1] at h
      cases r1 with
      | error y => simp at h
      | ok t1 =>
        obtain rfl := ih x he.1 _ _ _ _ h1
        dsimp only at h
        split at h
        · simp at h
        · split at h
          · simp at h
          · rename_i hf
            cases h
            rw [settled]
            refine fold_signed (fun l hl => (settled_lit x he.1 hl).2) ?_ hf
            have ho := he.2
            constructor <;> (rintro rfl; simp [cStep] at ho)
    | bin l op r =>
      simp only [Assigning] at he
      obtain ⟨hl, he⟩ := he
      have fl : ∀ x, settled l ≠ .lit (.float x) := fun x h => by obtain ⟨_, _, h⟩ := settled_lit l hl h; cases h
      by_cases hm : op = .memberAccess
      · rw [if_pos hm] at he
        obtain ⟨_, f, rfl, hf, _⟩ := he
        refine settles_bin (ih l hl) (hv _) fl (by simp [settled]) (settled_max hl) ?_ (.inl hm)
        simp only [reservedNames, List.mem_cons, not_or] at hf
        simp [settled, maxTyCast, hf]
      · rw [if_neg hm] at he
        obtain ⟨hr, he⟩ := he
        have fr : ∀ x, settled r ≠ .lit (.float x) := fun x h => by obtain ⟨_, _, h⟩ := settled_lit r hr h; cases h
        refine settles_bin (ih l hl) (ih r hr) fl fr (settled_max hl) (settled_max hr) (.inr (.inr ?_))
        intro i j h1 h2
        have n1 := (settled_lit l hl h1).1
        have n2 := (settled_lit r hr h2).1
        split at he
        · rw [target_number he.1] at n1; cases n1
        · rw [n1, n2] at he
          cases he.2
    | call f as =>
      cases f with
      | plain f =>
        simp only [Assigning] at he
        intro st e' st' t h
        simp only [finishStep] at h
        split at h
        · simp at h
        · split at h
          · simp at h
          · split at h
            · simp at h
            · rename_i hargs
              obtain rfl : _ = e' := congrArg Fin.tree h
              rw [settled, settles_args as (fun a ha => ih a (all_of_assigning he.2.2.2.2 a ha)) _ hargs]
      | _ => simp [Assigning] at he
    | _ => simp [Assigning] at he

/-! ## What the trees do -/

/-- A value that is not `()`. -/
def lifted (r : Option (V × σ)) : Option (Option V × σ) := r.map fun (v, s) => (some v, s)

@[simp] theorem valued_lifted (r : Option (V × σ)) : valued (lifted r) = r := by
  rcases r with _ | ⟨v, s⟩ <;> rfl

/-- `prev` is the only variable introduced with `let`. -/
def OnlyPrev (ρ : List (Str × V)) : Prop := ∀ x, x ≠ c!"prev" → ρ.lookup x = none

theorem OnlyPrev.cons {ρ : List (Str × V)} (h : OnlyPrev ρ) (v : V) : OnlyPrev ((c!"prev", v) :: ρ) := by
  intro x hx
  rw [List.lookup_cons, beq_false_of_ne hx]
  exact h x hx

/-- A Rust expression does what a C expression does. -/
structure Follows (M : Machine σ V) (names : List RTok → Option IdentExpr) (e : Expr) (t : RExpr) : Prop where
  val : ∀ ρ s, OnlyPrev ρ → rEval M names t ρ s = lifted (cEval M e s)
  place : ∀ ρ s, OnlyPrev ρ → rPlace M names t ρ s = cPlace M e s

variable {names : List RTok → Option IdentExpr}

theorem follows_star {e : Expr} {t : RExpr} (h : ∀ ρ s, OnlyPrev ρ → rEval M names t ρ s = lifted (cEval M e s)) :
    Follows M names (.un .deref e) (.un c!"*" t) := by
  constructor
  · intro ρ s hρ
    rw [rEval, h ρ s hρ, valued_lifted]
    simp only [cEval, cStep]
    rcases cEval M e s with _ | ⟨v, s1⟩
    · rfl
    · simp only [Option.bind_some, if_true]
      rcases M.get s1 (.deref v) with _ | w <;> rfl
  · intro ρ s hρ
    rw [rPlace, h ρ s hρ, valued_lifted]
    simp [cPlace]

theorem target_val {l : Expr} (h : isTarget l = true) (s : σ) :
    cEval M l s = (cPlace M l s).bind fun (p, s) => (M.get s p).map fun v => (v, s) := by
  unfold isTarget at h
  split at h
  · simp [cEval, cPlace]
  · rename_i e
    simp only [cEval, cPlace, cStep, if_true]
    rcases cEval M e s with _ | ⟨v, s1⟩ <;> rfl
  · rename_i l r
    simp only [cEval, cPlace, cAssign, if_true]
    rcases cPlace M l s with _ | ⟨p, s1⟩
    · rfl
    · simp only [Option.bind_some]
      rcases memberOf r with _ | f <;> rfl
  · cases h

theorem store_set {op : Option BinOp} {p : Place V} {v : V} {s s' : σ} (h : M.store op p v s = some s') : ∃ w, M.set s p w = some s' := by
  cases op with
  | none => exact ⟨v, h⟩
  | some op =>
    simp only [Machine.store, Option.bind_eq_some_iff] at h
    obtain ⟨_, _, w, _, h⟩ := h
    exact ⟨w, h⟩

theorem target_after {l : Expr} (ht : isTarget l = true) (hs : Steady M l) {s s1 s2 : σ} {p : Place V} {op : Option BinOp} {v : V}
    (hp : cPlace M l s = some (p, s1)) (h : M.store op p v s = some s2) : cEval M l s2 = (M.get s2 p).map fun v => (v, s2) := by
  obtain ⟨w, hw⟩ := store_set h
  rw [target_val ht, (hs s p s1 hp).2 w s2 hw]
  rfl

theorem assign_follows {l r : Expr} {op : BinOp} {o : Str} {t u : RExpr} (hop : (op, o) ∈ blockOps) (ht : isTarget l = true)
    (hs : Steady M l) (hl : Follows M names l t) (hr : Follows M names r u) :
    Follows M names (.bin l op r) (.seq (.bin o t u) t) := by
  obtain ⟨a, h1, h2⟩ : ∃ a, rAssign o = some a ∧ cAssign op = some a := by
    simp only [blockOps, List.mem_cons, Prod.mk.injEq, List.not_mem_nil, or_false] at hop
    rcases hop with ⟨rfl, rfl⟩ | ⟨rfl, rfl⟩ | ⟨rfl, rfl⟩ | ⟨rfl, rfl⟩ | ⟨rfl, rfl⟩ | ⟨rfl, rfl⟩ <;> exact ⟨_, rfl, rfl⟩
  have hm : op ≠ .memberAccess := by rintro rfl; simp [cAssign] at h2
  constructor
  · intro ρ s hρ
    simp only [rEval, cEval, h1, h2, hr.val _ _ hρ, hl.place _ _ hρ, valued_lifted]
    rcases cEval M r s with _ | ⟨v, s1⟩
    · rfl
    · simp only [Option.bind_some]
      rcases hp : cPlace M l s1 with _ | ⟨p, s2⟩
      · rfl
      · obtain rfl := (hs _ _ _ hp).1
        simp only [Option.bind_some]
        rcases hst : M.store a p v s2 with _ | s3
        · rfl
        · simp only [Option.map_some, Option.bind_some]
          rw [hl.val _ _ hρ, target_after ht hs hp hst]
  · intro ρ s _
    simp [rPlace, cPlace, hm]

theorem step_follows {e : Expr} {op : UnOp} {o : Str} {t : RExpr} (hop : (op, o) ∈ stepOps) (ht : isTarget e = true)
    (hs : Steady M e) (h : Follows M names e t) : Follows M names (.un op e) (.seq (.bin o t (.num 1)) t) := by
  obtain ⟨a, h1, h2⟩ : ∃ a, rAssign o = some (some a) ∧ cStep op = some (a, false) := by
    simp only [stepOps, List.mem_cons, Prod.mk.injEq, List.not_mem_nil, or_false] at hop
    rcases hop with ⟨rfl, rfl⟩ | ⟨rfl, rfl⟩ <;> exact ⟨_, rfl, rfl⟩
  have hm : op ≠ .deref := by rintro rfl; simp [cStep] at h2
  constructor
  · intro ρ s hρ
    simp only [rEval, cEval, h1, h2, h.place _ _ hρ]
    simp only [valued, Option.bind_some, Option.map_some]
    rcases hp : cPlace M e s with _ | ⟨p, s2⟩
    · rfl
    · obtain rfl := (hs _ _ _ hp).1
      simp only [Option.bind_some]
      rcases hg : M.get s2 p with _ | w
      · simp [Machine.store, hg, lifted]
      · simp only [Option.bind_some]
        rcases hst : M.store (some a) p (M.num 1) s2 with _ | s3
        · rfl
        · simp only [Option.map_some, Option.bind_some]
          rw [h.val _ _ hρ, target_after ht hs hp hst]
          rfl
  · intro ρ s _
    simp [rPlace, cPlace, hm]

theorem add_val {e : Expr} {t : RExpr} {o : Str} {a : BinOp} (ho : rAssign o = some (some a)) (h : Follows M names e t)
    {ρ : List (Str × V)} (hρ : OnlyPrev ρ) {s : σ} {p : Place V} (hp : cPlace M e s = some (p, s)) :
    rEval M names (.bin o t (.num 1)) ρ s = (M.store (some a) p (M.num 1) s).map fun s => (none, s) := by
  rw [rEval, ho, rEval]
  simp only [valued, Option.bind_some, Option.map_some, h.place _ _ hρ, hp]

theorem prev_local (ρ : List (Str × V)) (v : V) (s : σ) :
    rEval M names (.name [.id c!"prev"]) ((c!"prev", v) :: ρ) s = some (some v, s) := by
  simp [rEval, local?, List.lookup_cons]

theorem postStep_follows {e : Expr} {op : UnOp} {o : Str} {t : RExpr} (hop : (op, o) ∈ postOps) (ht : isTarget e = true)
    (hs : Steady M e) (h : Follows M names e t) :
    Follows M names (.un op e) (.letIn c!"prev" t (.seq (.bin o t (.num 1)) (.name [.id c!"prev"]))) := by
  obtain ⟨a, h1, h2⟩ : ∃ a, rAssign o = some (some a) ∧ cStep op = some (a, true) := by
    simp only [postOps, List.mem_cons, Prod.mk.injEq, List.not_mem_nil, or_false] at hop
    rcases hop with ⟨rfl, rfl⟩ | ⟨rfl, rfl⟩ <;> exact ⟨_, rfl, rfl⟩
  have hm : op ≠ .deref := by rintro rfl; simp [cStep] at h2
  constructor
  · intro ρ s hρ
    rw [rEval, h.val _ _ hρ, valued_lifted, target_val ht, cEval, h2]
    rcases hp : cPlace M e s with _ | ⟨p, s2⟩
    · rfl
    · obtain rfl := (hs _ _ _ hp).1
      simp only [Option.bind_some]
      rcases hg : M.get s2 p with _ | w
      · rfl
      · simp only [Option.bind_some, Option.map_some]
        rw [rEval, add_val h1 h (hρ.cons w) hp]
        rcases hst : M.store (some a) p (M.num 1) s2 with _ | s3
        · rfl
        · simp only [Option.map_some, Option.bind_some, prev_local]
          rfl
  · intro ρ s _
    simp [rPlace, cPlace, hm]

theorem move_val {e : Expr} {t : RExpr} {m : Str} {a : BinOp} (hm : (m, a) ∈ [(c!"add", BinOp.add), (c!"sub", .sub)])
    (ht : isTarget e = true) (h : Follows M names e t) {ρ : List (Str × V)} (hρ : OnlyPrev ρ) {s : σ} {p : Place V}
    (hp : cPlace M e s = some (p, s)) :
    rEval M names (.bin c!"=" t (.method t m [.num 1])) ρ s = (M.store (some a) p (M.num 1) s).map fun s => (none, s) := by
  have hme : ∀ v, rMethod M m v [M.num 1] = M.bin a v (M.num 1) := by
    intro v
    simp only [List.mem_cons, Prod.mk.injEq, List.not_mem_nil, or_false] at hm
    rcases hm with ⟨rfl, rfl⟩ | ⟨rfl, rfl⟩ <;> rfl
  have ha : rAssign c!"=" = some none := rfl
  rw [rEval, ha]
  simp only [rEval, h.val _ _ hρ, h.place _ _ hρ, valued_lifted, target_val ht, hp, Option.bind_some]
  simp only [Machine.store]
  rcases hg : M.get s p with _ | w
  · rfl
  · simp only [Option.bind_some, Option.map_some, rValues, rEval, valued, hme]
    rcases M.bin a w (M.num 1) with _ | x
    · rfl
    · simp only [Option.bind_some, Option.map_some, h.place _ _ hρ, hp]

theorem derefStep_val {e : Expr} {op : UnOp} {m : Str} {t : RExpr} (hop : (op, m) ∈ stepNames) (ht : isTarget e = true)
    (hs : Steady M e) (h : Follows M names e t) (ρ : List (Str × V)) (s : σ) (hρ : OnlyPrev ρ) :
    rEval M names (.seq (.bin c!"=" t (.method t m [.num 1])) t) ρ s = lifted (cEval M (.un op e) s) := by
  obtain ⟨a, h1, h2⟩ : ∃ a, (m, a) ∈ [(c!"add", BinOp.add), (c!"sub", .sub)] ∧ cStep op = some (a, false) := by
    simp only [stepNames, List.mem_cons, Prod.mk.injEq, List.not_mem_nil, or_false] at hop
    rcases hop with ⟨rfl, rfl⟩ | ⟨rfl, rfl⟩
    · exact ⟨.add, by simp, rfl⟩
    · exact ⟨.sub, by simp, rfl⟩
  rw [rEval, cEval, h2]
  rcases hp : cPlace M e s with _ | ⟨p, s2⟩
  · have ha : rAssign c!"=" = some none := rfl
    rw [rEval, ha]
    simp only [rEval, h.val _ _ hρ, valued_lifted, target_val ht, hp]
    rfl
  · obtain rfl := (hs _ _ _ hp).1
    rw [move_val h1 ht h hρ hp]
    simp only [Option.bind_some]
    rcases hg : M.get s2 p with _ | w
    · simp [Machine.store, hg, lifted]
    · simp only [Option.bind_some]
      rcases hst : M.store (some a) p (M.num 1) s2 with _ | s3
      · rfl
      · simp only [Option.map_some, Option.bind_some]
        rw [h.val _ _ hρ, target_after ht hs hp hst]
        rfl

theorem derefPostStep_val {e : Expr} {op : UnOp} {m : Str} {t : RExpr} (hop : (op, m) ∈ postNames) (ht : isTarget e = true)
    (hs : Steady M e) (h : Follows M names e t) (ρ : List (Str × V)) (s : σ) (hρ : OnlyPrev ρ) :
    rEval M names (.letIn c!"prev" t (.seq (.bin c!"=" t (.method t m [.num 1])) (.name [.id c!"prev"]))) ρ s =
      lifted (cEval M (.un op e) s) := by
  obtain ⟨a, h1, h2⟩ : ∃ a, (m, a) ∈ [(c!"add", BinOp.add), (c!"sub", .sub)] ∧ cStep op = some (a, true) := by
    simp only [postNames, List.mem_cons, Prod.mk.injEq, List.not_mem_nil, or_false] at hop
    rcases hop with ⟨rfl, rfl⟩ | ⟨rfl, rfl⟩
    · exact ⟨.add, by simp, rfl⟩
    · exact ⟨.sub, by simp, rfl⟩
  rw [rEval, h.val _ _ hρ, valued_lifted, target_val ht, cEval, h2]
  rcases hp : cPlace M e s with _ | ⟨p, s2⟩
  · rfl
  · obtain rfl := (hs _ _ _ hp).1
    simp only [Option.bind_some]
    rcases hg : M.get s2 p with _ | w
    · rfl
    · simp only [Option.bind_some, Option.map_some]
      rw [rEval, move_val h1 ht h (hρ.cons w) hp]
      rcases hst : M.store (some a) p (M.num 1) s2 with _ | s3
      · rfl
      · simp only [Option.map_some, Option.bind_some, prev_local]
        rfl

/-! ## The trees -/

theorem signed_un {op : UnOp} (h : op ≠ .minus) (e : Expr) : signed op e = .un op e := by
  cases op <;> first | rfl | exact absurd rfl h

theorem settled_begins : (e : Expr) → beginsBlock (settled e) = beginsBlock e
  | .un op e => by
    rw [settled]
    unfold signed
    split
    · simp [beginsBlock]
    · rfl
  | .bin l op r => by rw [settled, beginsBlock, beginsBlock, settled_begins l]
  | .call f as => by rw [settled]; rfl
  | .var _ => rfl
  | .lit _ => rfl
  | .cast _ _ => rfl
  | .stringify _ => rfl
  | .concatStr _ => rfl
  | .sizeOf _ => rfl
  | .ternary _ _ _ => rfl

theorem settled_target {e : Expr} (h : isTarget e = true) : isTarget (settled e) = true := by
  unfold isTarget at h
  split at h
  · rfl
  · rfl
  · rename_i l r
    rw [settled, isTarget, settled_begins]
    exact h
  · cases h

theorem settled_named {e : Expr} (h : isNamed e = true) : isNamed (settled e) = true ∧ isTarget e = true := by
  unfold isNamed at h
  split at h
  · exact ⟨rfl, rfl⟩
  · rename_i l r
    rw [settled, isNamed, settled_begins, isTarget]
    exact ⟨h, h⟩
  · cases h

theorem settled_endsCast : (e : Expr) → Assigning C args M e → endsCast (settled e) = false
  | .un op e, he => by
    rw [settled]
    simp only [Assigning] at he
    have := settled_endsCast e he.1
    unfold signed
    split
    · rfl
    · simpa [endsCast] using this
  | .bin l op r, he => by
    rw [settled, endsCast]
    simp only [Assigning] at he
    by_cases hm : op = .memberAccess
    · rw [if_pos hm] at he
      obtain ⟨_, _, f, rfl, _⟩ := he
      rfl
    · rw [if_neg hm] at he
      exact settled_endsCast r he.2.1
  | .call f as, _ => by rw [settled]; rfl
  | .var _, _ => rfl
  | .lit _, _ => rfl
  | .cast _ _, he => by simp [Assigning] at he
  | .stringify _, he => by simp [Assigning] at he
  | .concatStr _, he => by simp [Assigning] at he
  | .sizeOf _, he => by simp [Assigning] at he
  | .ternary _ _ _, he => by simp [Assigning] at he

theorem settled_negLit {e : Expr} (he : Assigning C args M e) (h : isNumber e = false) : negLit (settled e) = false := by
  rcases hs : negLit (settled e) with _ | _
  · rfl
  · unfold negLit at hs
    split at hs
    · rename_i hl
      rw [(settled_lit e he hl).1] at h
      cases h
    · cases hs

/-- The trees of the names. -/
theorem name_follows (mac : Bool) (hn : args.Nodup) {x : IdentExpr} (he : Assigning C args M (.var x)) :
    ∃ t, RustTree ⟨C, fnLoc args, mac⟩ (.var x) t ∧ Follows M (scope mac args) (.var x) t := by
  have key : ∀ ts, scope mac args ts = some x → (∀ ρ : List (Str × V), OnlyPrev ρ → local? ρ ts = none) →
      Follows M (scope mac args) (.var x) (.name ts) := by
    intro ts h1 h2
    constructor
    · intro ρ s hρ
      rw [rEval, h2 ρ hρ, h1, cEval]
      simp only [Option.bind_some, lifted, Option.map_map]
      rfl
    · intro ρ s hρ
      rw [rPlace, h2 ρ hρ, h1, cPlace]
      rfl
  cases x with
  | plain x =>
    simp only [Assigning, usableName] at he
    obtain ⟨h1, h2, h3, h4, h5⟩ := he
    exact ⟨_, .plain h1 h2 h3, key _ (by simp [scope, h5]) (fun ρ hρ => hρ x h4)⟩
  | arg i =>
    simp only [Assigning] at he
    obtain ⟨x, h1, h2, h3, h4⟩ := he
    obtain ⟨hi, rfl⟩ := List.getElem?_eq_some_iff.1 h1
    have hx : args.idxOf args[i] = i := hn.idxOf_getElem i hi
    cases mac with
    | true => exact ⟨_, .metavar (i := i) h1 h2 rfl, key _ (by simp [scope, hx]) (fun ρ _ => rfl)⟩
    | false => exact ⟨_, .param (i := i) h1 h2 rfl h3, key _ (by simp [scope, hx]) (fun ρ hρ => hρ _ h4)⟩
  | _ => simp [Assigning] at he

theorem arith_follows {l r : Expr} {op : BinOp} {o : Str} {t u : RExpr} (ho : rustOp op = some o) (ha : cArith op = true)
    (hl : Follows M names l t) (hr : Follows M names r u) : Follows M names (.bin l op r) (.bin o t u) := by
  obtain ⟨h1, h2, h3, h4⟩ : rAssign o = none ∧ rBin o = some op ∧ cAssign op = none ∧ op ≠ .memberAccess := by
    cases op <;> simp [cArith] at ha <;> cases ho <;> exact ⟨rfl, rfl, rfl, by simp⟩
  constructor
  · intro ρ s hρ
    rw [rEval, cEval, h1, h3, hl.val _ _ hρ, valued_lifted]
    simp only [if_neg h4, if_pos ha]
    rcases cEval M l s with _ | ⟨a, s1⟩
    · rfl
    · simp only [Option.bind_some, hr.val _ _ hρ, valued_lifted, h2]
      rcases cEval M r s1 with _ | ⟨b, s2⟩
      · rfl
      · simp only [Option.bind_some, lifted, Option.map_map]
        rfl
  · intro ρ s _
    simp [rPlace, cPlace, h4]

theorem prefix_follows {e : Expr} {op : UnOp} {o : Str} {t : RExpr} (ho : op = .minus ∧ o = c!"-" ∨ op = .comp ∧ o = c!"!")
    (h : Follows M names e t) : Follows M names (.un op e) (.un o t) := by
  obtain ⟨h1, h2, h3, h4, h5⟩ : o ≠ c!"*" ∧ rUn o = some op ∧ cStep op = none ∧ op ≠ .deref ∧ (op = .minus ∨ op = .comp) := by
    rcases ho with ⟨rfl, rfl⟩ | ⟨rfl, rfl⟩ <;> exact ⟨by decide, rfl, rfl, by decide, by decide⟩
  constructor
  · intro ρ s hρ
    rw [rEval, cEval, h3, h.val _ _ hρ, valued_lifted]
    simp only [if_neg h1, if_neg h4, if_pos h5]
    rcases cEval M e s with _ | ⟨a, s1⟩
    · rfl
    · simp only [Option.bind_some, h2, lifted, Option.map_map]
      rfl
  · intro ρ s _
    simp [rPlace, cPlace, h1, h4]

theorem number_follows (v : Nat) (sfx : Str) {i : LitInt} (h : i.value.toInt.toNat = v) :
    Follows M names (.lit (.int i)) (.num v sfx) := by
  subst h
  constructor
  · intro ρ s _
    rw [rEval, cEval]
    rfl
  · intro ρ s _
    rw [rPlace, cPlace] <;> simp

theorem method_follows {p i : Expr} {op : BinOp} {m : Str} {t u : RExpr} (hm : (m, op) ∈ [(c!"add", BinOp.add), (c!"sub", .sub)])
    (hp : Follows M names p t) (hi : Follows M names i u) (ρ : List (Str × V)) (s : σ) (hρ : OnlyPrev ρ) :
    rEval M names (.method t m [u]) ρ s = lifted (cEval M (.bin p op i) s) := by
  obtain ⟨h1, h2, h3, h4⟩ : (∀ v w, rMethod M m v [w] = M.bin op v w) ∧ cAssign op = none ∧ op ≠ .memberAccess ∧ cArith op = true := by
    simp only [List.mem_cons, Prod.mk.injEq, List.not_mem_nil, or_false] at hm
    rcases hm with ⟨rfl, rfl⟩ | ⟨rfl, rfl⟩ <;> exact ⟨fun _ _ => rfl, rfl, by decide, by decide⟩
  rw [rEval, cEval, h2, hp.val _ _ hρ, valued_lifted]
  simp only [if_neg h3, if_pos h4]
  rcases cEval M p s with _ | ⟨a, s1⟩
  · rfl
  · simp only [Option.bind_some, rValues, hi.val _ _ hρ, valued_lifted]
    rcases cEval M i s1 with _ | ⟨b, s2⟩
    · rfl
    · simp only [Option.bind_some, Option.map_some, h1, lifted, Option.map_map]
      rfl

theorem field_follows {l : Expr} {f : Str} {t : RExpr} (h : Follows M names l t) :
    Follows M names (.bin l .memberAccess (.var (.plain f))) (.field t f) := by
  constructor
  · intro ρ s hρ
    rw [rEval, cEval, h.place _ _ hρ]
    simp only [cAssign, if_true, memberOf]
    rcases cPlace M l s with _ | ⟨p, s1⟩
    · rfl
    · simp only [Option.bind_some, lifted, Option.map_map]
      rfl
  · intro ρ s hρ
    rw [rPlace, cPlace, h.place _ _ hρ]
    simp only [if_true, memberOf]
    rcases cPlace M l s with _ | ⟨p, s1⟩ <;> rfl

theorem negated {v : BitVec 128} (h : 0 < v.toInt) : (-v).toInt = -v.toInt := by
  have h1 : v ≠ BitVec.intMin 128 := by rintro rfl; revert h; decide
  exact BitVec.toInt_neg_of_ne_intMin h1

/-- What is known of the tree of an expression. -/
def Treed (mac : Bool) (C : Ctx) (args : List Str) (M : Machine σ V) (e : Expr) : Prop :=
  ∃ t, RustTree ⟨C, fnLoc args, mac⟩ (settled e) t ∧ Separated (settled e) ∧ Follows M (scope mac args) e t

theorem deref_treed {mac : Bool} {e : Expr} (he : Assigning C args M e) (hp : pointerOperand e)
    (hr : ∀ x, sizeOf x < sizeOf e → Assigning C args M x → Treed mac C args M x) (h : Treed mac C args M e) :
    Treed mac C args M (.un .deref e) := by
  obtain ⟨t, h1, h2, h3⟩ := h
  have plain : PlainPointer (settled e) → negLeft (settled e) = false → Treed mac C args M (.un .deref e) := fun hq hn =>
    ⟨_, .deref hq h1, ⟨fun _ => hn, h2⟩, follows_star h3.val⟩
  cases e with
  | lit x => exact plain trivial rfl
  | var x => exact plain trivial rfl
  | call f as => exact plain (by rw [settled]; trivial) (by rw [settled]; rfl)
  | un op p =>
    have hq := he
    simp only [pointerOperand] at hp
    simp only [Assigning] at he
    by_cases hc : (cStep op).isSome = true
    · rw [if_pos hc] at hp he
      obtain ⟨u, u1, u2, u3⟩ := hr p (by simp; omega) he.1
      obtain ⟨n1, n2⟩ := settled_named hp
      have hs : settled (.un .deref (.un op p)) = .un .deref (.un op (settled p)) := by
        rw [settled, settled, signed_un (by decide), signed_un (by rintro rfl; simp [cStep] at hc)]
      have hse : Separated (settled (.un .deref (.un op p))) := by
        rw [hs]
        simp only [Separated]
        exact ⟨fun _ => rfl, fun h => by subst h; simp [cStep] at hc, u2⟩
      unfold Treed
      rw [hs] at hse ⊢
      cases op <;> simp [cStep] at hc
      · exact ⟨_, .derefPostStep (m := c!"add") (by decide) n1 u1, hse,
          follows_star (derefPostStep_val (op := .postInc) (m := c!"add") (by decide) n2 he.2.2 u3)⟩
      · exact ⟨_, .derefPostStep (m := c!"sub") (by decide) n1 u1, hse,
          follows_star (derefPostStep_val (op := .postDec) (m := c!"sub") (by decide) n2 he.2.2 u3)⟩
      · exact ⟨_, .derefStep (m := c!"add") (by decide) n1 u1, hse, follows_star (derefStep_val (op := .inc) (m := c!"add") (by decide) n2 he.2.2 u3)⟩
      · exact ⟨_, .derefStep (m := c!"sub") (by decide) n1 u1, hse, follows_star (derefStep_val (op := .dec) (m := c!"sub") (by decide) n2 he.2.2 u3)⟩
    · rw [if_neg hc] at hp
      refine plain ?_ ?_
      · rw [settled]
        unfold signed
        split
        · trivial
        · rcases hp with rfl | rfl | rfl
          · exact .inl rfl
          · exact .inr (.inl rfl)
          · exact .inr (.inr (.inr rfl))
      · rw [settled]
        unfold signed
        split <;> rfl
  | bin l op r =>
    simp only [pointerOperand] at hp
    have hq := he
    simp only [Assigning] at he
    have hn : negLeft (settled (.bin l op r)) = false := by
      rw [settled]
      exact settled_negLit he.1 hp
    by_cases ha : op = .add ∨ op = .sub
    · have hm : op ≠ .memberAccess := by rintro rfl; simp at ha
      rw [if_neg hm] at he
      obtain ⟨u, u1, u2, u3⟩ := hr l (by simp; omega) he.1
      obtain ⟨w, w1, w2, w3⟩ := hr r (by simp; omega) he.2.1
      have hse : Separated (settled (.un .deref (.bin l op r))) := by
        rw [settled, signed_un (by decide)]
        exact ⟨fun _ => hn, h2⟩
      have hs : settled (.un .deref (.bin l op r)) = .un .deref (.bin (settled l) op (settled r)) := by
        rw [settled, settled, signed_un (by decide)]
      unfold Treed
      rw [hs] at hse ⊢
      rcases ha with rfl | rfl
      · exact ⟨_, .derefAdd u1 w1, hse, follows_star (method_follows (op := .add) (by simp) u3 w3)⟩
      · exact ⟨_, .derefSub u1 w1, hse, follows_star (method_follows (op := .sub) (by simp) u3 w3)⟩
    · refine plain ?_ hn
      rw [settled]
      exact ⟨fun h => ha (.inl h), fun h => ha (.inr h)⟩
  | _ => simp [Assigning] at he

mutual
theorem assigning_treed (mac : Bool) (hn : args.Nodup) (e : Expr) (he : Assigning C args M e) : Treed mac C args M e := by
  cases e with
  | lit x =>
    cases x with
    | int i =>
      simp only [Assigning] at he
      refine ⟨_, .int, trivial, ?_⟩
      unfold rInt
      rw [if_neg (by omega)]
      exact number_follows _ _ (by omega)
    | _ => simp [Assigning] at he
  | var x =>
    obtain ⟨t, h1, h2⟩ := name_follows mac hn he
    exact ⟨t, h1, trivial, h2⟩
  | un op e =>
    have hq := he
    simp only [Assigning] at he
    have hr : Treed mac C args M e := assigning_treed mac hn e he.1
    by_cases hc : (cStep op).isSome = true
    · rw [if_pos hc] at he
      obtain ⟨t, h1, h2, h3⟩ := hr
      have hm : op ≠ .minus := by rintro rfl; simp [cStep] at hc
      have hd : op ≠ .deref := by rintro rfl; simp [cStep] at hc
      have ht := settled_target he.2.1
      unfold Treed
      rw [settled, signed_un hm]
      have hs : Separated (.un op (settled e)) := ⟨fun h => absurd h hd, h2⟩
      cases op <;> simp [cStep] at hc
      · exact ⟨_, .postStep (o := c!"+=") (by decide) ht h1, hs, postStep_follows (by decide) he.2.1 he.2.2 h3⟩
      · exact ⟨_, .postStep (o := c!"-=") (by decide) ht h1, hs, postStep_follows (by decide) he.2.1 he.2.2 h3⟩
      · exact ⟨_, .step (o := c!"+=") (by decide) ht h1, hs, step_follows (by decide) he.2.1 he.2.2 h3⟩
      · exact ⟨_, .step (o := c!"-=") (by decide) ht h1, hs, step_follows (by decide) he.2.1 he.2.2 h3⟩
    · rw [if_neg hc] at he
      by_cases hd : op = .deref
      · subst hd
        rw [if_pos rfl] at he
        exact deref_treed he.1 he.2 (fun x hx hax => have : sizeOf x < 1 + sizeOf UnOp.deref + sizeOf e := by omega
          assigning_treed mac hn x hax) hr
      · rw [if_neg hd] at he
        obtain ⟨t, h1, h2, h3⟩ := hr
        by_cases hm : op = .minus
        · subst hm
          rw [if_pos rfl] at he
          by_cases hl : ∃ i, settled e = .lit (.int i)
          · obtain ⟨i, hi⟩ := hl
            have hnum := (settled_lit e he.1 hi).1
            obtain ⟨j, rfl⟩ : ∃ j, e = .lit (.int j) := by
              have hm := he.2
              unfold minusOperand at hm
              split at hm
              · exact ⟨_, rfl⟩
              · rw [hnum] at hm; cases hm
            have hp : 0 < j.value.toInt := he.2
            unfold Treed
            simp only [settled, signed]
            refine ⟨_, .int, trivial, ?_⟩
            unfold rInt
            simp only [negated hp]
            rw [if_pos (by omega)]
            exact prefix_follows (.inl ⟨rfl, rfl⟩) (number_follows _ _ (by omega))
          · unfold Treed
            have hs : settled (.un .minus e) = .un .minus (settled e) := by
              rw [settled]
              unfold signed
              split
              · rename_i h; exact absurd ⟨_, h⟩ hl
              · rfl
            rw [hs]
            exact ⟨_, .un (o := c!"-") rfl h1, ⟨fun h => (by cases h), h2⟩, prefix_follows (.inl ⟨rfl, rfl⟩) h3⟩
        · rw [if_neg hm] at he
          obtain rfl := he.2
          unfold Treed
          rw [settled, signed_un hm]
          exact ⟨_, .un (o := c!"!") rfl h1, ⟨fun h => absurd h hd, h2⟩, prefix_follows (.inr ⟨rfl, rfl⟩) h3⟩
  | bin l op r =>
    simp only [Assigning] at he
    obtain ⟨t, h1, h2, h3⟩ : Treed mac C args M l := assigning_treed mac hn l he.1
    unfold Treed
    rw [settled]
    have hc : endsCast (settled l) = false := settled_endsCast l he.1
    by_cases hm : op = .memberAccess
    · subst hm
      rw [if_pos rfl] at he
      obtain ⟨hl, hnum, f, rfl, f1, f2, f3⟩ := he
      refine ⟨_, .field h1 f1 f2 f3, ?_, field_follows h3⟩
      simp only [Separated]
      exact ⟨fun h => (by cases h), fun h => (by cases h), fun _ => settled_negLit hl hnum, h2, trivial⟩
    · rw [if_neg hm] at he
      obtain ⟨u, u1, u2, u3⟩ : Treed mac C args M r := assigning_treed mac hn r he.2.1
      have hs : Separated (.bin (settled l) op (settled r)) := by
        simp only [Separated]
        exact ⟨fun _ => hc, fun _ h => absurd h (by simp [hc]), fun h => absurd h hm, h2, u2⟩
      by_cases hb : op ∈ blockOps.map Prod.fst
      · rw [if_pos hb] at he
        obtain ⟨⟨op', o⟩, ho, rfl⟩ := List.mem_map.1 hb
        exact ⟨_, .assign ho (settled_target he.2.2.1) h1 u1, hs, assign_follows ho he.2.2.1 he.2.2.2 h3 u3⟩
      · rw [if_neg hb] at he
        obtain ⟨o, ho⟩ : ∃ o, rustOp op = some o := by
          have := he.2.2.1
          cases op <;> simp [cArith] at this <;> exact ⟨_, rfl⟩
        exact ⟨_, .bin ho h1 u1, hs, arith_follows ho he.2.2.1 h3 u3⟩
  | call f as =>
    cases f with
    | plain f =>
      simp only [Assigning] at he
      obtain ⟨f1, f2, f3, f4, has⟩ := he
      obtain ⟨ts, h1, h2, h3⟩ := assigning_args mac hn as has
      unfold Treed
      rw [settled]
      refine ⟨_, .call f1 (fun h => settledAll_length as ▸ f2 h) h1, h2, ?_, ?_⟩
      · intro ρ s hρ
        rw [rEval, cEval, h3 ρ s hρ]
        rcases cValues M as s with _ | ⟨vs, s1⟩
        · rfl
        · have hl : local? ρ [.id f] = none := hρ f f3
          simp only [Option.bind_some, rCallee, hl, callee]
          simp [scope, f4, callee, lifted]
      · intro ρ s _
        rw [rPlace, cPlace] <;> simp
    | _ => simp [Assigning] at he
  | _ => simp [Assigning] at he
termination_by sizeOf e
theorem assigning_args (mac : Bool) (hn : args.Nodup) (as : List Expr) (he : AssigningAll C args M as) :
    ∃ ts, ArgTrees ⟨C, fnLoc args, mac⟩ (settledAll as) ts ∧ SeparatedAll (settledAll as) ∧
      ∀ (ρ : List (Str × V)) s, OnlyPrev ρ → rValues M (scope mac args) ts ρ s = cValues M as s := by
  cases as with
  | nil => exact ⟨_, .nil, trivial, fun ρ s _ => by rw [rValues, cValues]⟩
  | cons a as =>
    simp only [AssigningAll] at he
    obtain ⟨t, h1, h2, h3⟩ : Treed mac C args M a := assigning_treed mac hn a he.1
    obtain ⟨ts, g1, g2, g3⟩ := assigning_args mac hn as he.2
    rw [settledAll]
    rcases hi : noInto ⟨C, fnLoc args, mac⟩ (settled a) with _ | _
    · refine ⟨_, .into h1 hi g1, ⟨h2, g2⟩, fun ρ s hρ => ?_⟩
      have hv : rEval M (scope mac args) (.method t c!"into" []) ρ s = lifted (cEval M a s) := by
        rw [rEval, h3.val _ _ hρ, valued_lifted]
        rcases cEval M a s with _ | ⟨v, s1⟩ <;> rfl
      rw [rValues, cValues, hv, valued_lifted]
      simp only [g3 _ _ hρ]
    · refine ⟨_, .plain h1 hi g1, ⟨h2, g2⟩, fun ρ s hρ => ?_⟩
      rw [rValues, cValues, h3.val _ _ hρ, valued_lifted]
      simp only [g3 _ _ hρ]
termination_by sizeOf as
end

end CMacro
