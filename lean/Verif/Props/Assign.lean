import Verif.Proofs.Assign
import Verif.Spec.Hygiene
import Verif.Props.RustSyntax

/-!
# Assignments, increments and decrements do in Rust what they do in C

C98.  C37 says how the generated text is read; here the expression that is read is run, next to the one of C, from the same state.
-/

namespace CMacro

open Spec

/-- Whether a `macro_rules!` macro was generated. -/
def Spec.isMacro : GenFn → Bool
  | .macro _ _ _ => true
  | .fn _ _ _ _ => false

/-! ## C98 -/

/-- **C98**, the full statement: the code generated for an expression yields the value of the expression and leaves the state that it
leaves.  It is false of the code, see `C98_false`, `C98_false_unit` and `C98_false_prev`. -/
def C98_statement : Prop :=
  ∀ (σ V : Type) (M : Machine σ V) (C : Ctx) (name : Str) (args : List Str) (e : Expr) (out : GenFn), args.Nodup →
    FnMacro.Generates C ⟨name, args, .expr e⟩ (.ok out) →
    ∃ t, rustParse (codeOf out) = some t ∧
      ∀ s v s', cEval M e s = some (v, s') → rEval M (scope (isMacro out) args) t [] s = some (some v, s')

/-- The body of what is generated is the printed form of the settled expression. -/
theorem generated_body {C : Ctx} {name : Str} {args : List Str} {e : Expr} {out : GenFn}
    (hs : ∀ n, LeavesSettled (Expr.finish C (fnLoc args) n) e) (h : FnMacro.Generates C ⟨name, args, .expr e⟩ (.ok out)) :
    codeOf out = (settled e).toks ⟨C, fnLoc args, isMacro out⟩ := by
  obtain ⟨tys, ha⟩ := h.argTypes
  obtain ⟨N, hN⟩ := h
  have hg := hN N (Nat.le_refl _)
  rw [FnMacro.generate_eq N C _ ha] at hg
  simp only [MacroBody.finish] at hg
  obtain ⟨⟨e', st', r⟩, hf⟩ : ∃ o, Expr.finish C (fnLoc args) N e ⟨tys, false⟩ = o := ⟨_, rfl⟩
  rw [hf] at hg
  cases r with
  | error x => simp [fnOut] at hg
  | ok t =>
    obtain rfl := hs N _ _ _ _ hf
    obtain ⟨_, ⟨_, rfl⟩ | ⟨_, rfl⟩⟩ := fnOut_ok hg
    · rfl
    · rfl

/-- **C98** for expressions made of numbers, names, members, `*`, `-`, `~`, arithmetic operators, calls, assignments, increments and
decrements, in which finding an object that is assigned to twice gives the same object: for every state, both yield the same value and
leave the same state, or neither has a result. -/
theorem C98_partial {σ V : Type} (M : Machine σ V) (C : Ctx) (name : Str) (args : List Str) (e : Expr) (out : GenFn) (hn : args.Nodup)
    (he : Assigning C args M e) (h : FnMacro.Generates C ⟨name, args, .expr e⟩ (.ok out)) :
    ∃ t, rustParse (codeOf out) = some t ∧
      ∀ s, rEval M (scope (isMacro out) args) t [] s = (cEval M e s).map fun (v, s') => (some v, s') := by
  obtain ⟨t, h1, h2, h3⟩ := assigning_treed (isMacro out) hn e he
  rw [generated_body (fun n => finish_settles _ n e he) h]
  exact ⟨t, C37_partial _ _ t h1 h2, fun s => h3.val [] s (fun _ _ => rfl)⟩

/-- **C98** for the assignments that yield nothing in Rust, `*=`, `/=`, `%=`, `<<=` and `>>=`: they leave the same state. -/
theorem C98_effect {σ V : Type} (M : Machine σ V) (C : Ctx) (name : Str) (args : List Str) (l r : Expr) (op o : BinOp) (out : GenFn)
    (hn : args.Nodup) (ho : cAssign op = some (some o)) (hb : op ∉ blockOps.map Prod.fst) (hl : Assigning C args M l)
    (ht : isTarget l = true) (hr : Assigning C args M r)
    (h : FnMacro.Generates C ⟨name, args, .expr (.bin l op r)⟩ (.ok out)) :
    ∃ t, rustParse (codeOf out) = some t ∧
      ∀ s v s', cEval M (.bin l op r) s = some (v, s') → rEval M (scope (isMacro out) args) t [] s = some (none, s') := by
  obtain ⟨t, h1, h2, h3⟩ := assigning_treed (isMacro out) hn l hl
  obtain ⟨u, u1, u2, u3⟩ := assigning_treed (isMacro out) hn r hr
  have hs : ∀ n, LeavesSettled (Expr.finish C (fnLoc args) n) (.bin l op r) := by
    intro n
    cases n with
    | zero => intro st e' st' t h; simp [Expr.finish] at h
    | succ n =>
      refine settles_bin (finish_settles _ n l hl) (finish_settles _ n r hr) (fun x h => ?_) (fun x h => ?_) (settled_max hl)
        (settled_max hr) (.inr (.inl ?_))
      · obtain ⟨_, _, h⟩ := settled_lit l hl h; cases h
      · obtain ⟨_, _, h⟩ := settled_lit r hr h; cases h
      · cases op <;> simp [cAssign] at ho <;> rfl
  rw [generated_body hs h, settled]
  obtain ⟨w, w1, w2⟩ : ∃ w, rustOp op = some w ∧ rAssign w = some (some o) := by
    cases op <;> simp [cAssign] at ho <;> subst ho <;> first | exact ⟨_, rfl, rfl⟩ | simp [blockOps] at hb
  have hm : op ≠ .memberAccess := by rintro rfl; simp [cAssign] at ho
  have hsh : op ≠ .shl := by rintro rfl; simp [cAssign] at ho
  have hlt : op ≠ .lt := by rintro rfl; simp [cAssign] at ho
  refine ⟨_, C37_partial _ _ _ (.bin w1 h1 u1) ?_, ?_⟩
  · simp only [Separated]
    exact ⟨fun h => absurd h hlt, fun h => absurd h hsh, fun h => absurd h hm, h2, u2⟩
  · intro s v s' hc
    have hρ : OnlyPrev ([] : List (Str × V)) := fun _ _ => rfl
    rw [cEval, ho] at hc
    rw [rEval, w2]
    simp only [u3.val _ _ hρ, h3.place _ _ hρ, valued_lifted]
    rcases h5 : cEval M r s with _ | ⟨x, s1⟩
    · rw [h5] at hc; cases hc
    · rw [h5] at hc
      simp only [Option.bind_some] at hc ⊢
      rcases h6 : cPlace M l s1 with _ | ⟨p, s2⟩
      · rw [h6] at hc; cases hc
      · rw [h6] at hc
        simp only [Option.bind_some] at hc ⊢
        rcases h7 : M.store (some o) p x s2 with _ | s3
        · rw [h7] at hc; cases hc
        · rw [h7] at hc
          simp only [Option.bind_some, Option.map_eq_some_iff] at hc
          obtain ⟨_, _, hc⟩ := hc
          cases hc
          rfl

/-! ## Objects that are found again -/

/-- A variable, a member of a variable, a member of that, and so on. -/
def Spec.varPath : Expr → Bool
  | .var _ => true
  | .bin l .memberAccess (.var (.plain _)) => varPath l
  | _ => false

theorem path_place {σ V : Type} (M : Machine σ V) : (l : Expr) → varPath l = true → ∃ p, ∀ s, cPlace M l s = some (p, s)
  | .var x, _ => ⟨_, fun s => by rw [cPlace]⟩
  | .bin l .memberAccess (.var (.plain f)), h => by
    obtain ⟨p, hp⟩ := path_place M l h
    exact ⟨.field p f, fun s => by simp [cPlace, hp, memberOf]⟩

/-- Whatever the machine, such an expression stands for the same object every time. -/
theorem C98_steady {σ V : Type} (M : Machine σ V) (l : Expr) (h : varPath l = true) : Steady M l := by
  obtain ⟨p, hp⟩ := path_place M l h
  intro s q s' hq
  rw [hp] at hq
  cases hq
  exact ⟨rfl, fun v s2 _ => hp s2⟩

/-- `x.pos.line` -/
example : varPath (.bin (.bin (.var (.arg 0)) .memberAccess (.var (.plain c!"pos"))) .memberAccess (.var (.plain c!"line"))) = true := rfl

/-! ## Examples -/

/-- Variables and memory, both made of integers; the parameters of the macro are the first variables. -/
def toyMachine : Machine (List Int × List Int) Int where
  num n := n
  un op v := if op = .minus then some (-v) else none
  bin op a b := if op = .add then some (a + b) else if op = .sub then some (a - b) else if op = .mul then some (a * b) else none
  get s p := match p with
    | .var (.arg i) => s.1[i]?
    | .deref v => s.2[v.toNat]?
    | _ => none
  set s p v := match p with
    | .var (.arg i) => if i < s.1.length then some (s.1.set i v, s.2) else none
    | .deref w => if w.toNat < s.2.length then some (s.1, s.2.set w.toNat v) else none
    | _ => none
  call f vs s := if f = c!"next" ∧ vs = [] then some (s.1.headD 0, (s.1.map (· + 1), s.2)) else none

/-- `x += *y++ - -1` -/
def assignExample : Expr :=
  .bin (.var (.arg 0)) .addAssign (.bin (.un .deref (.un .postInc (.var (.arg 1)))) .sub (.un .minus (.lit (.int ⟨1, none⟩))))

example : Assigning (Ctx.unit asciiEnv) [c!"x", c!"y"] toyMachine assignExample := by
  refine ⟨⟨c!"x", rfl, by decide, by decide, by decide⟩, ?_⟩
  rw [if_neg (by decide)]
  refine ⟨⟨⟨⟨⟨c!"y", rfl, by decide, by decide, by decide⟩, ?_⟩, ?_⟩, ?_⟩, ?_⟩
  · exact ⟨rfl, C98_steady _ _ rfl⟩
  · exact rfl
  · rw [if_neg (by decide)]
    exact ⟨⟨show (0 : Int) ≤ BitVec.toInt 1 by decide, show (0 : Int) < BitVec.toInt 1 by decide⟩, by decide, rfl⟩
  · exact ⟨rfl, C98_steady _ _ rfl⟩

/-- In the state with `x = 3` and `y` pointing to the second of the cells 7, 8, 9: the value is 12, and `y` points to the third. -/
example : cEval toyMachine assignExample ([3, 1], [7, 8, 9]) = some (12, ([12, 2], [7, 8, 9])) := by decide +kernel

example : pipeFn 20 (Ctx.unit asciiEnv) [.defineFn c!"F" [c!"x", c!"y"] [c!"x", c!"+=", c!"*", c!"y", c!"++", c!"-", c!"-", c!"1"]] c!"F" =
    .gen (.ok (.macro c!"F" [q!"$ x : expr", q!"$ y : expr"] (q!"{ $ x += * { let prev = $ y ; $ y = $ y . add (" ++ [.int 1 []] ++
      q!") ; prev } -" ++ [.int (-1) []] ++ q!"; $ x }"))) := by decide +kernel

/-- In this machine a cell that a variable points to is found again after it has changed. -/
theorem toy_steady (i : Nat) : Steady toyMachine (.un .deref (.var (.arg i))) := by
  intro s p s' h
  simp only [cPlace, cEval, if_true, Option.map_map, Option.map_eq_some_iff] at h
  obtain ⟨v, hv, h⟩ := h
  cases h
  refine ⟨rfl, fun w s2 h2 => ?_⟩
  simp only [toyMachine] at h2
  split at h2
  · cases h2
    simp only [cPlace, cEval, if_true]
    have hv' : toyMachine.get (s.1, s.2.set v.toNat w) (.var (.arg i)) = some v := hv
    rw [hv']
    rfl
  · cases h2

/-- `*x = *x * next()` -/
example : Assigning (Ctx.unit asciiEnv) [c!"x"] toyMachine
    (.bin (.un .deref (.var (.arg 0))) .assign (.bin (.un .deref (.var (.arg 0))) .mul (.call (.plain c!"next") []))) := by
  have hx : Assigning (Ctx.unit asciiEnv) [c!"x"] toyMachine (.un .deref (.var (.arg 0))) :=
    ⟨⟨c!"x", rfl, by decide, by decide, by decide⟩, trivial⟩
  refine ⟨hx, ?_⟩
  rw [if_neg (by decide)]
  refine ⟨⟨hx, ?_⟩, ?_⟩
  · rw [if_neg (by decide)]
    exact ⟨⟨by decide, by decide, by decide, by decide, trivial⟩, by decide, rfl⟩
  · exact ⟨rfl, toy_steady 0⟩

/-- `x *= y` as `C98_effect` has it. -/
example : cAssign .mulAssign = some (some .mul) ∧ .mulAssign ∉ blockOps.map Prod.fst ∧
    cEval toyMachine (.bin (.var (.arg 0)) .mulAssign (.var (.arg 1))) ([3, 5], []) = some (15, ([15, 5], [])) :=
  ⟨rfl, by decide, by decide +kernel⟩

/-! ## Where it fails -/

/-- **C98** is false of the code: `*x++ = 0` is printed as
`{ *{ let prev = $x; $x = $x.add(1); prev } = 0; *{ let prev = $x; $x = $x.add(1); prev } }`.  With `x` pointing to the second of the
cells 7, 8, 9, it points to the third afterwards in C, and behind it in Rust, where the value is 9 instead of 0. -/
theorem C98_false : ¬ C98_statement := by
  intro h
  have hg := fnGenerates_of 8 (Ctx.unit asciiEnv) c!"F" [c!"x"]
    (.bin (.un .deref (.un .postInc (.var (.arg 0)))) .assign (.lit (.int ⟨0, none⟩))) _ rfl (by decide +kernel)
  have he : FnMacro.generate 8 (Ctx.unit asciiEnv) ⟨c!"F", [c!"x"],
      .expr (.bin (.un .deref (.un .postInc (.var (.arg 0)))) .assign (.lit (.int ⟨0, none⟩)))⟩ =
      .ok (.macro c!"F" [q!"$ x : expr"] (q!"{ * { let prev = $ x ; $ x = $ x . add (" ++ [.int 1 []] ++ q!") ; prev } =" ++ [.int 0 []] ++
        q!"; * { let prev = $ x ; $ x = $ x . add (" ++ [.int 1 []] ++ q!") ; prev } }")) := by decide +kernel
  rw [he] at hg
  obtain ⟨t, h1, h2⟩ := h _ _ toyMachine _ _ _ _ _ (by decide) hg
  have h3 := h2 ([1], [7, 8, 9]) 0 ([2], [7, 0, 9]) (by decide +kernel)
  have step : ∀ x, rustParse (codeOf (.macro c!"F" [q!"$ x : expr"] (q!"{ * { let prev = $ x ; $ x = $ x . add (" ++ [.int 1 []] ++
      q!") ; prev } =" ++ [.int 0 []] ++ q!"; * { let prev = $ x ; $ x = $ x . add (" ++ [.int 1 []] ++ q!") ; prev } }"))) = some x →
      rEval toyMachine (scope true [c!"x"]) x [] ([1], [7, 8, 9]) = some (some 9, ([3], [7, 0, 9])) := by
    intro x hx
    have hp : rustParse (q!"{ * { let prev = $ x ; $ x = $ x . add (" ++ [.int 1 []] ++
      q!") ; prev } =" ++ [.int 0 []] ++ q!"; * { let prev = $ x ; $ x = $ x . add (" ++ [.int 1 []] ++ q!") ; prev } }") =
        some (.seq (.bin c!"=" (.un c!"*" (.letIn c!"prev" (.name q!"$ x") (.seq (.bin c!"=" (.name q!"$ x")
          (.method (.name q!"$ x") c!"add" [.num 1])) (.name q!"prev")))) (.num 0))
          (.un c!"*" (.letIn c!"prev" (.name q!"$ x") (.seq (.bin c!"=" (.name q!"$ x")
          (.method (.name q!"$ x") c!"add" [.num 1])) (.name q!"prev"))))) := by kernel_rfl
    obtain rfl := Option.some.inj (hp.symm.trans hx)
    decide +kernel
  rw [show isMacro (.macro c!"F" _ _) = true from rfl, step t h1] at h3
  simp at h3

/-- `y = (x *= 2)` is printed as `{ $y = ($x) *= (2); $y }`, which assigns the result of the inner assignment.  That is `()` in Rust:
there is no value. -/
theorem C98_false_unit : ∃ (e : Expr) (ts : List RTok) (t : RExpr) (s s' : List Int × List Int) (v : Int),
    FnMacro.generate 8 (Ctx.unit asciiEnv) ⟨c!"F", [c!"x", c!"y"], .expr e⟩ = .ok (.macro c!"F" [q!"$ x : expr", q!"$ y : expr"] ts) ∧
    rustParse ts = some t ∧ cEval toyMachine e s = some (v, s') ∧ rEval toyMachine (scope true [c!"x", c!"y"]) t [] s = none :=
  ⟨.bin (.var (.arg 1)) .assign (.bin (.var (.arg 0)) .mulAssign (.lit (.int ⟨2, none⟩))),
    q!"{ $ y = ( $ x ) *= (" ++ [.int 2 []] ++ q!") ; $ y }",
    .seq (.bin c!"=" (.name q!"$ y") (.bin c!"*=" (.name q!"$ x") (.num 2))) (.name q!"$ y"),
    ([3, 0], []), ([6, 6], []), 6, by decide +kernel, by kernel_rfl, by decide +kernel, by decide +kernel⟩

/-- A machine with one variable, `prev`. -/
def prevMachine : Machine Int Int where
  num n := n
  un _ _ := none
  bin op a b := if op = .add then some (a + b) else none
  get s p := match p with
    | .var (.plain x) => if x = c!"prev" then some s else none
    | _ => none
  set _ p v := match p with
    | .var (.plain x) => if x = c!"prev" then some v else none
    | _ => none
  call _ _ _ := none

/-- `prev++` is printed as `{ let prev = prev; prev += 1; prev }`: the variable that remembers the old value hides the one that is to be
changed. -/
theorem C98_false_prev : ∃ (e : Expr) (ts : List RTok) (t : RExpr),
    FnMacro.generate 8 (Ctx.unit asciiEnv) ⟨c!"F", [], .expr e⟩ = .ok (.macro c!"F" [] ts) ∧ rustParse ts = some t ∧
    cEval prevMachine e 4 = some (4, 5) ∧ rEval prevMachine (scope true []) t [] 4 = none :=
  ⟨.un .postInc (.var (.plain c!"prev")), q!"{ let prev = prev ; prev +=" ++ [.int 1 []] ++ q!"; prev }",
    .letIn c!"prev" (.name q!"prev") (.seq (.bin c!"+=" (.name q!"prev") (.num 1)) (.name q!"prev")),
    by decide +kernel, by kernel_rfl, by decide +kernel, by decide +kernel⟩

example : pipeFn 20 (Ctx.unit asciiEnv) [.defineFn c!"F" [] [c!"prev", c!"++"]] c!"F" =
    .gen (.ok (.macro c!"F" [] (q!"{ let prev = prev ; prev +=" ++ [.int 1 []] ++ q!"; prev }"))) := by decide +kernel

end CMacro
