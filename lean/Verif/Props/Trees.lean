import Verif.Proofs.Trees
import Verif.Props.CInt

/-!
# C109: replacing text is replacing trees
-/

namespace CMacro
open Spec (Op Def Table Item Expands IsIdent Gram BodyText Node Stands TypedValue Widths IntTy)

/-- **C109**: let the words of the definition of `name` stand for the tree `e`, where names of macros stand for the trees of their
definitions and calls stand for the trees of the definitions with the trees of the arguments in place of the parameters.  Then
expanding `name` and parsing the result gives `e`. -/
theorem C109 (E : Env) (L : E.Lawful) (h : List Op) (hP : Spec.Plain (Spec.cName E) (Table.run h)) (hB : Spec.NoBackslash (Table.run h))
    (name : Str) (hn : IsIdent E.xidStart E.xidContinue name) (body : List Str) (hdef : Table.run h name = some (.var body)) (e : Expr)
    (hr : Stands E (Table.run h) [name] (fun _ => none) (.expr 12 e) body) :
    ∃ ts, Returns (fun k => (MacroSet.run h).expandVar E k name) (.ok ts) ∧ VarMacro.parse E name ts = .ok ⟨name, .expr e⟩ := by
  obtain ⟨ts, ⟨_, out, hx, hd⟩, hg⟩ := stands_makes (O := []) L (by simp [AllNames]) hr [] [] bound_nil
  rw [lay_nil] at hx
  have hP' := plain_cName L hP
  have hx' := expands_congr (g := nameOf E) (fun id d hd s hs => cName_is L (hB id d hd s hs)) hx
  rw [show body.map (Spec.item (Spec.cName E)) = body.map (Spec.item (nameOf E)) from
    List.map_congr_left fun s hs => by simp only [Spec.item, cName_is L (hB name _ hdef s hs)]] at hx'
  exact ⟨ts, expandVar_of_expands L (agrees_run h) hP' hdef hx' (results_itemText L (itemText_of hd.toks)),
    C35_var_grammar E (isIdent_iff.2 hn) hg⟩

/-- The same for function-like macros, whose parameters stand for themselves. -/
theorem C109_fn (E : Env) (L : E.Lawful) (h : List Op) (hP : Spec.Plain (Spec.cName E) (Table.run h)) (hB : Spec.NoBackslash (Table.run h))
    (name : Str) (hn : IsIdent E.xidStart E.xidContinue name) (xs body : List Str) (hdef : Table.run h name = some (.fn xs body))
    (hxs : ∀ x ∈ xs, IsIdent E.xidStart E.xidContinue x) (e : Expr)
    (hr : Stands E (Table.run h) [name] (Spec.bindNodes xs ((List.range xs.length).map fun i => .expr 0 (.var (.arg i)))) (.expr 12 e) body) :
    ∃ ts, Returns (fun k => (MacroSet.run h).expandFn E k name) (.ok (xs.map .ident, ts)) ∧
      FnMacro.parse E name (xs.map .ident) ts = .ok ⟨name, xs, .expr e⟩ := by
  obtain ⟨ts, ⟨_, out, hx, hd⟩, hg⟩ := stands_makes (O := xs) L hxs hr xs _ (bound_own L hxs)
  rw [lay_own hxs] at hx
  have hell : c!"..." ∉ xs := fun hm => (notIdent_cToken L (Spec.CToken.punct (E := E) (by decide)) (by simp)).1 (hxs _ hm)
  have hP' := plain_cName L hP
  have hx' := expands_congr (g := nameOf E) (fun id d hd s hs => cName_is L (hB id d hd s hs)) hx
  rw [show Spec.openBody (Spec.cName E) xs body = Spec.openBody (nameOf E) xs body from
    List.map_congr_left fun s hs => by simp only [Spec.item, cName_is L (hB name _ hdef s hs)]] at hx'
  have h1 := expandFn_of_expands (variadic := false) L (agrees_run h) hP' (by simpa using hdef) hell hx' (outToken_bodyText L hd.toks)
  simp only [Bool.false_eq_true, if_false, List.append_nil] at h1
  refine ⟨ts, h1, C35_fn_grammar E (isIdent_iff.2 hn) (xs := xs) (r := []) ?_ hg⟩
  have hx : IdsAndComments (xs.map .ident) := fun t ht => by
    obtain ⟨id, _, rfl⟩ := List.mem_map.1 ht
    exact .inl ⟨id, rfl⟩
  rw [parseArgs_plain hx, idsOf_idents]

/-- What is generated for the definitions is what is generated for the tree. -/
theorem C109_constant (C : Ctx) (L : C.env.Lawful) (h : List Op) (hP : Spec.Plain (Spec.cName C.env) (Table.run h))
    (hB : Spec.NoBackslash (Table.run h)) (name : Str) (hn : IsIdent C.env.xidStart C.env.xidContinue name) (body : List Str)
    (hdef : Table.run h name = some (.var body)) (e : Expr) (hr : Stands C.env (Table.run h) [name] (fun _ => none) (.expr 12 e) body)
    (code : List RTok) (ty : Option (List RTok)) (hg : VarMacro.Generates C ⟨name, .expr e⟩ (.ok (code, ty))) : MakesConst C h name code ty := by
  obtain ⟨ts, ⟨_, out, hx, hd⟩, h2⟩ := stands_makes (O := []) L (by simp [AllNames]) hr [] [] bound_nil
  rw [lay_nil] at hx
  exact makesConst_of L hn hP hB hdef hx (itemText_of hd.toks) h2 hg

/-- What is generated for the definitions is what is generated for the tree. -/
theorem C109_function (C : Ctx) (L : C.env.Lawful) (h : List Op) (hP : Spec.Plain (Spec.cName C.env) (Table.run h))
    (hB : Spec.NoBackslash (Table.run h)) (name : Str) (hn : IsIdent C.env.xidStart C.env.xidContinue name) (xs body : List Str)
    (hdef : Table.run h name = some (.fn xs body)) (hxs : ∀ x ∈ xs, IsIdent C.env.xidStart C.env.xidContinue x) (e : Expr)
    (hr : Stands C.env (Table.run h) [name] (Spec.bindNodes xs ((List.range xs.length).map fun i => .expr 0 (.var (.arg i)))) (.expr 12 e) body)
    (res : GenFn) (hg : FnMacro.Generates C ⟨name, xs, .expr e⟩ (.ok res)) : MakesFn C h name res := by
  obtain ⟨ts, ⟨_, out, hx, hd⟩, h2⟩ := stands_makes (O := xs) L hxs hr xs _ (bound_own L hxs)
  rw [lay_own hxs] at hx
  exact makesFn_of L hn hP hB hdef (fun hm => (notIdent_cToken L (Spec.CToken.punct (E := C.env) (by decide)) (by simp)).1 (hxs _ hm))
    hx hd.toks h2 hg

/-- A constant defined with macros has the value that the integer types of C give to its tree, if nothing wraps around (C63). -/
theorem C109_value (W : Widths) (C : Ctx) (L : C.env.Lawful) (h : List Op) (hP : Spec.Plain (Spec.cName C.env) (Table.run h))
    (hB : Spec.NoBackslash (Table.run h)) (name : Str) (hn : IsIdent C.env.xidStart C.env.xidContinue name) (body : List Str)
    (hdef : Table.run h name = some (.var body)) (e : Expr) (hr : Stands C.env (Table.run h) [name] (fun _ => none) (.expr 12 e) body)
    (t : IntTy) (v : Int) (hv : TypedValue W False e t v) : MakesConst C h name [.int v []] none :=
  C109_constant C L h hP hB name hn body hdef e hr _ _ (C63_no_wrap_partial W C name e t v hv)

/-- A function defined with macros returns what the integer types of C give to its tree (C64: no conversions between operands, nothing
wraps around). -/
theorem C109_fn_value (W : Widths) (C : Ctx) (L : C.env.Lawful) (hC : Spec.CalmCtx C) (h : List Op)
    (hP : Spec.Plain (Spec.cName C.env) (Table.run h)) (hB : Spec.NoBackslash (Table.run h)) (name : Str) (hn : Spec.Word C.env name)
    (ps : List (Str × IntTy × Int)) (body : List Str) (hdef : Table.run h name = some (.fn (ps.map (·.1)) body)) (e : Expr)
    (hr : Stands C.env (Table.run h) [name]
      (Spec.bindNodes (ps.map (·.1)) ((List.range (ps.map (·.1)).length).map fun i => .expr 0 (.var (.arg i)))) (.expr 12 e) body)
    (t : IntTy) (v : Int) (hf : C.function name = none) (hd : Spec.Declared C name ps)
    (hw : ∀ p ∈ ps, Spec.Word C.env p.1) (hk : ∀ p ∈ ps, p.1 ∉ c!"..." :: Spec.rustKeywords)
    (hc : Spec.constant e = false) (hv : Spec.FnValue W False False (Spec.byIndex ps) e (.int t v)) (hs : Spec.Separated e)
    (hfit : Spec.FitsBlock e) (hroot : Spec.Rooted C.ffiPrefix := by intro p h; cases h) :
    ∃ code u, MakesFn C h name (.fn name (Spec.paramText C.ffiPrefix ps) (some (Spec.tyText C.ffiPrefix t)) code) ∧
      Spec.rustBlock code = some u ∧ Spec.RustEval W C.ffiPrefix (Spec.byName ps) u (.int t v) := by
  have hxs : ∀ x ∈ ps.map (·.1), IsIdent C.env.xidStart C.env.xidContinue x := by
    intro x hx
    obtain ⟨p, hp, rfl⟩ := List.mem_map.1 hx
    exact hw p hp
  obtain ⟨ts, ⟨_, out, hx, hdn⟩, hg⟩ := stands_makes (O := ps.map fun p : Str × IntTy × Int => p.1) L hxs hr (ps.map fun p : Str × IntTy × Int => p.1) _ (bound_own L hxs)
  rw [lay_own hxs] at hx
  exact C64_text_partial W C L hC h name body ps hn hP hB hdef out hx ts hdn.toks e hg t v hf hd hw hk hc hv hs hfit hroot

/-! ## Examples

`#define WORD unsigned long`, `#define AS(t, v) ((t) v)`, `#define LEN p->len`, `#define NEXT f(LEN, AS(WORD, 3)) + a[AS(int, 2)]`,
`#define TWICE(x) x + x`, `#define LESS(y) TWICE(y) - 1`, `#define SUM(a, b) a + b`, `#define NINE SUM(1, 2) * 3`. -/

def treeOps : List Op :=
  [.defineVar c!"WORD" [c!"unsigned", c!"long"],
   .defineFn c!"AS" [c!"t", c!"v"] [c!"(", c!"(", c!"t", c!")", c!"v", c!")"],
   .defineVar c!"LEN" [c!"p", c!"->", c!"len"],
   .defineVar c!"NEXT" [c!"f", c!"(", c!"LEN", c!",", c!"AS", c!"(", c!"WORD", c!",", c!"3", c!")", c!")", c!"+", c!"a", c!"[",
     c!"AS", c!"(", c!"int", c!",", c!"2", c!")", c!"]"],
   .defineFn c!"TWICE" [c!"x"] [c!"x", c!"+", c!"x"],
   .defineFn c!"LESS" [c!"y"] [c!"TWICE", c!"(", c!"y", c!")", c!"-", c!"1"],
   .defineFn c!"SUM" [c!"a", c!"b"] [c!"a", c!"+", c!"b"],
   .defineVar c!"NINE" [c!"SUM", c!"(", c!"1", c!",", c!"2", c!")", c!"*", c!"3"]]

theorem treeOps_noBackslash : Spec.NoBackslash (Table.run treeOps) := by
  refine noBackslash_of ?_
  intro id d hd
  rcases run_mem hd with ⟨b, rfl, h⟩ | ⟨p, b, rfl, h⟩ <;> simp [treeOps] at h
  · rcases h with ⟨rfl, rfl⟩ | ⟨rfl, rfl⟩ | ⟨rfl, rfl⟩ | ⟨rfl, rfl⟩ <;> decide
  · rcases h with ⟨rfl, rfl, rfl⟩ | ⟨rfl, rfl, rfl⟩ | ⟨rfl, rfl, rfl⟩ | ⟨rfl, rfl, rfl⟩ <;> decide

theorem treeOps_plain : Spec.Plain (Spec.cName asciiEnv) (Table.run treeOps) := by
  have h := plain_of_check (E := asciiEnv) (h := treeOps) (by decide +kernel)
  refine ⟨h.var, fun id params body hd => ?_⟩
  obtain ⟨h1, h2, named, h3, h4, h5⟩ := h.fn id params body hd
  refine ⟨h1, h2, named, h3, h4, fun p hp => ⟨?_, (h5 p hp).2⟩⟩
  rw [cName_eq]
  · exact (h5 p hp).1
  · have hp' : p ∈ params := by rcases h3 with rfl | rfl <;> simp [hp]
    rcases run_mem hd with ⟨b, h, _⟩ | ⟨_, b, h, hm⟩
    · cases h
    · cases h
      simp [treeOps] at hm
      clear h1 h2 h3 h4 h5 hd
      have hall : ∀ p ∈ [c!"t", c!"v", c!"x", c!"y", c!"a", c!"b"], '\\' ∉ p := by decide
      refine hall p ?_
      rcases hm with ⟨rfl, rfl, rfl⟩ | ⟨rfl, rfl, rfl⟩ | ⟨rfl, rfl, rfl⟩ | ⟨rfl, rfl, rfl⟩
      all_goals (clear hp hall; clear named; revert p; decide)

/-- Trees of the definitions above. -/
abbrev TreeOf (S : List Str) (ρ : Str → Option Node) (N : Node) (ws : List Str) : Prop := Stands asciiEnv (Table.run treeOps) S ρ N ws

theorem treeOf_up {S : List Str} {ρ : Str → Option Node} {ℓ : Nat} {e : Expr} {ws : List Str} (h : TreeOf S ρ (.expr ℓ e) ws) :
    ∀ k, ℓ + k ≤ 12 → TreeOf S ρ (.expr (ℓ + k) e) ws
  | 0, _ => h
  | k + 1, hk => .up (treeOf_up h k (by omega)) (show ℓ + k < 12 by omega)

/-- A digit. -/
def digitExpr (d : Nat) : Expr := .lit (.int ⟨BitVec.ofNat 128 d, none⟩)

theorem treeOf_digit {S : List Str} {ρ : Str → Option Node} (d : Nat) (c : Char) (h0 : 0 < d) (hd : d < 10) (hc : c.toNat = 48 + d) :
    TreeOf S ρ (.expr 0 (digitExpr d)) [[c]] := by
  have := Spec.CToken.int (E := asciiEnv) (t := []) (ty := none) (.dec (ds := [d]) (s := [c]) (.cons ⟨hd, .inl ⟨hd, hc⟩⟩ .nil) (by simp) (by
        intro h
        simp only [List.head?_cons, Option.some.injEq] at h
        subst h
        revert hc
        rw [show '0'.toNat = 48 from rfl]
        omega)) (by simp [Spec.positional]; omega) (by decide)
  have := Stands.lit (D := Table.run treeOps) (S := S) (ρ := ρ) this
  simpa [Spec.positional, digitExpr] using this

theorem treeOf_stays {S : List Str} {ρ : Str → Option Node} (x : Str)
    (h : (isIdentifier asciiEnv x = true ∧ x ≠ c!"__VA_ARGS__") ∧ Table.run treeOps x = none) (hρ : ρ x = none) :
    Spec.Stays asciiEnv (Table.run treeOps) S ρ x := ⟨isIdent_iff.1 h.1.1, h.1.2, hρ, .inl h.2⟩

theorem treeOf_macro {S : List Str} {ρ : Str → Option Node} (x : Str)
    (h : (isIdentifier asciiEnv x = true ∧ x ≠ c!"__VA_ARGS__") ∧ x ∉ S) (hρ : ρ x = none) : Spec.IsMacro asciiEnv S ρ x :=
  ⟨isIdent_iff.1 h.1.1, h.1.2, hρ, h.2⟩

/-- `AS(type, digit)` is the digit, converted. -/
theorem treeOf_as {S : List Str} (hS : c!"AS" ∉ S) {ts : List Str} {t : Ty} (ht : TreeOf S (fun _ => none) (.type t) ts) (d : Nat) (c : Char)
    (h0 : 0 < d) (hd : d < 10) (hc : c.toNat = 48 + d) :
    TreeOf S (fun _ => none) (.expr 0 (.cast t (digitExpr d))) (c!"AS" :: c!"(" :: (Spec.commaWords [ts, [[c]]] ++ [c!")"])) := by
  refine .macroCall (Ns := [.type t, .expr 0 (digitExpr d)]) (treeOf_macro _ ⟨by decide +kernel, hS⟩ rfl) rfl ?_ (by simp) rfl rfl ?_ ?_
  · intro p hp
    refine isIdent_iff.1 ?_
    revert p
    decide +kernel
  · intro i a A ha hA
    match i with
    | 0 => simp at ha hA; subst ha hA; exact ht
    | 1 => simp at ha hA; subst ha hA; exact treeOf_digit d c h0 hd hc
    | i + 2 => simp at ha
  · refine .paren (ws := [c!"(", c!"t", c!")", c!"v"]) (treeOf_up (.cast (us := [c!"t"]) (ws := [c!"v"]) (.param rfl) (treeOf_up (.param rfl) 2 (by decide))) 10 (by decide)) ?_
    intro n h
    cases h

/-- The tree of `NEXT`: `f((*p).len, (unsigned long) 3) + *(a + (int) 2)`. -/
def nextExpr : Expr :=
  .bin (.call (.plain c!"f") [.bin (.un .deref (.var (.plain c!"p"))) .memberAccess (.var (.plain c!"len")), .cast (.builtIn .uLong) (digitExpr 3)]) .add
    (.un .deref (.bin (.var (.plain c!"a")) .add (.cast (.builtIn .int) (digitExpr 2))))

theorem next_stands : TreeOf [c!"NEXT"] (fun _ => none) (.expr 12 nextExpr)
    [c!"f", c!"(", c!"LEN", c!",", c!"AS", c!"(", c!"WORD", c!",", c!"3", c!")", c!")", c!"+", c!"a", c!"[",
     c!"AS", c!"(", c!"int", c!",", c!"2", c!")", c!"]"] := by
  have nm : ∀ {S : List Str} (x : Str), (isIdentifier asciiEnv x = true ∧ x ≠ c!"__VA_ARGS__") ∧ Table.run treeOps x = none → x ∉ Spec.cKeywords →
      TreeOf S (fun _ => none) (.expr 0 (.var (.plain x))) [x] := fun x h hk => .name (treeOf_stays x h rfl) hk
  have hlen : TreeOf [c!"NEXT"] (fun _ => none) (.expr 0 (.bin (.un .deref (.var (.plain c!"p"))) .memberAccess (.var (.plain c!"len")))) [c!"LEN"] :=
    .object (treeOf_macro _ ⟨by decide +kernel, by decide⟩ rfl) rfl
      (.arrow (ws := [c!"p"]) (nm c!"p" ⟨by decide +kernel, rfl⟩ (by decide)) (nm c!"len" ⟨by decide +kernel, rfl⟩ (by decide)))
  have hword : TreeOf [c!"NEXT"] (fun _ => none) (.type (.builtIn .uLong)) [c!"WORD"] := by
    refine .object (treeOf_macro _ ⟨by decide +kernel, by decide⟩ rfl) rfl (.type ?_ ?_)
    · intro w hw
      simp only [List.mem_cons, List.not_mem_nil, or_false] at hw
      rcases hw with rfl | rfl
      · exact treeOf_stays _ ⟨by decide +kernel, rfl⟩ rfl
      · exact treeOf_stays _ ⟨by decide +kernel, rfl⟩ rfl
    · exact .int (ws := [c!"unsigned", c!"long"]) ⟨_, by simp [Spec.intTable], .refl _⟩ (by decide) (by decide)
  have hint : TreeOf [c!"NEXT"] (fun _ => none) (.type (.builtIn .int)) [c!"int"] := by
    refine .type ?_ (.int (ws := [c!"int"]) ⟨_, by simp [Spec.intTable], .refl _⟩ (by decide) (by decide))
    intro w hw
    rw [List.mem_singleton.1 hw]
    exact treeOf_stays _ ⟨by decide +kernel, rfl⟩ rfl
  have h3 := treeOf_as (by decide) hword 3 '3' (by decide) (by decide) rfl
  have h2 := treeOf_as (by decide) hint 2 '2' (by decide) (by decide) rfl
  have hcall := Stands.call (nm c!"f" ⟨by decide +kernel, rfl⟩ (by decide)) (args := [[c!"LEN"], c!"AS" :: c!"(" :: (Spec.commaWords [[c!"WORD"], [c!"3"]] ++ [c!")"])])
    (es := [.bin (.un .deref (.var (.plain c!"p"))) .memberAccess (.var (.plain c!"len")), .cast (.builtIn .uLong) (digitExpr 3)]) rfl (by
      intro i a e ha he
      match i with
      | 0 => simp at ha he; subst ha he; exact treeOf_up hlen 12 (by decide)
      | 1 => simp at ha he; subst ha he; exact treeOf_up h3 12 (by decide)
      | i + 2 => simp at ha)
  have hidx := Stands.index (nm c!"a" ⟨by decide +kernel, rfl⟩ (by decide)) (treeOf_up h2 12 (by decide))
  exact treeOf_up (.bin (ℓ := 3) (p := c!"+") (op := .add) (by decide) (treeOf_up hcall 4 (by decide)) (treeOf_up hidx 3 (by decide))) 8 (by decide)

example : ∃ ts, Returns (fun k => (MacroSet.run treeOps).expandVar asciiEnv k c!"NEXT") (.ok ts) ∧
    VarMacro.parse asciiEnv c!"NEXT" ts = .ok ⟨c!"NEXT", .expr nextExpr⟩ :=
  C109 asciiEnv asciiEnv_lawful treeOps treeOps_plain treeOps_noBackslash c!"NEXT" (isIdent_iff.1 (by decide +kernel)) _ rfl _ next_stands

/-- The tree of `LESS(y)`: `y + y - 1`. -/
def lessExpr : Expr := .bin (.bin (.var (.arg 0)) .add (.var (.arg 0))) .sub (digitExpr 1)

theorem less_stands : TreeOf [c!"LESS"] (Spec.bindNodes [c!"y"] [.expr 0 (.var (.arg 0))]) (.expr 12 lessExpr)
    [c!"TWICE", c!"(", c!"y", c!")", c!"-", c!"1"] := by
  refine treeOf_up (.bin (ℓ := 3) (p := c!"-") (op := .sub) (ws := c!"TWICE" :: c!"(" :: (Spec.commaWords [[c!"y"]] ++ [c!")"])) (by decide) ?_
    (treeOf_up (treeOf_digit 1 '1' (by decide) (by decide) rfl) 3 (by decide))) 8 (by decide)
  refine .macroCall (Ns := [.expr 0 (.var (.arg 0))]) (treeOf_macro _ ⟨by decide +kernel, by decide⟩ rfl) rfl ?_ (by simp) rfl rfl ?_ ?_
  · intro p hp; rw [List.mem_singleton.1 hp]; exact isIdent_iff.1 (by decide +kernel)
  · intro i a A ha hA
    match i with
    | 0 => simp at ha hA; subst ha hA; exact .param rfl
    | i + 1 => simp at ha
  · exact .bin (ℓ := 3) (p := c!"+") (op := .add) (ws := [c!"x"]) (by decide) (treeOf_up (.param rfl) 4 (by decide)) (treeOf_up (.param rfl) 3 (by decide))

example : ∃ ts, Returns (fun k => (MacroSet.run treeOps).expandFn asciiEnv k c!"LESS") (.ok ([.ident c!"y"], ts)) ∧
    FnMacro.parse asciiEnv c!"LESS" [.ident c!"y"] ts = .ok ⟨c!"LESS", [c!"y"], .expr lessExpr⟩ :=
  C109_fn asciiEnv asciiEnv_lawful treeOps treeOps_plain treeOps_noBackslash c!"LESS" (isIdent_iff.1 (by decide +kernel)) [c!"y"] _ rfl
    (by intro p hp; rw [List.mem_singleton.1 hp]; exact isIdent_iff.1 (by decide +kernel)) _ less_stands

/-- For a `long` of 5 it returns the `long` 9. -/
example : ∃ code u, MakesFn uintCtx treeOps c!"LESS" (.fn c!"LESS" [q!"y : c_long"] (some (q!"c_long")) code) ∧
    Spec.rustBlock code = some u ∧ Spec.RustEval .lp64 none (Spec.byName [(c!"y", .long, 5)]) u (.int .long 9) := by
  refine C109_fn_value .lp64 uintCtx asciiEnv_lawful calmCtx_uint treeOps treeOps_plain treeOps_noBackslash c!"LESS" (word_ascii (by decide +kernel))
    [(c!"y", .long, 5)] _ rfl lessExpr less_stands .long 9 rfl (by intro p hp; rw [List.mem_singleton.1 hp]; rfl)
    (by intro p hp; rw [List.mem_singleton.1 hp]; exact word_ascii (by decide +kernel)) (by decide) rfl ?_
    (by simp [lessExpr, digitExpr, Spec.Separated, Spec.endsCast]) (.inr rfl)
  have hy : Spec.FnValue .lp64 False False (Spec.byIndex [(c!"y", .long, 5)]) (.var (.arg 0)) (.int .long 5) := .param rfl
  have h1 : TypedValue .lp64 False (digitExpr 1) .int 1 := .lit (n := ⟨1, none⟩) ⟨true, [], _, rfl, by simp, by decide⟩
  have h2 := Spec.FnValue.bin (W := .lp64) (op := .add) rfl rfl hy hy (.inr (.inl ⟨rfl, rfl⟩)) (.fits (by decide)) (.fits (by decide)) .add (fun h => by cases h) (.fits (by decide))
    (.inr (by simp [Spec.isLimit]))
  exact .bin (op := .sub) rfl rfl h2 (.const h1) (.inr (.inr (.inr ⟨rfl, rfl⟩))) (.fits (by decide)) (.fits (by decide)) .sub (fun h => by cases h) (.fits (v := 9) (by decide))
    (.inr (by simp))

/-- Why levels matter: `SUM(1, 2)` is of the level of `+`, so it may not be an operand of `*`; the text of `NINE` is `1 + 2 * 3`. -/
theorem C109_levels_needed : ∃ ts, Returns (fun k => (MacroSet.run treeOps).expandVar asciiEnv k c!"NINE") (.ok ts) ∧
    VarMacro.parse asciiEnv c!"NINE" ts = .ok ⟨c!"NINE", .expr (.bin (digitExpr 1) .add (.bin (digitExpr 2) .mul (digitExpr 3)))⟩ :=
  ⟨_, ⟨by simp, 6, rfl⟩, rfl⟩

end CMacro
