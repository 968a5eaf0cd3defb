import Verif.Spec.Parens
import Verif.Props.Trees

/-!
# C111: parentheses around definitions
-/

namespace CMacro
open Spec (Op Def Table IsIdent Node Stands Stays IsMacro TypeName Composite wrapped)

variable {E : Env} {D D' : Table}

/-! ## Levels and shapes of readings -/

/-- Parameters are names and stand for nodes of the grammar. -/
def FitParams (E : Env) (ρ : Str → Option Node) : Prop :=
  ∀ p N, ρ p = some N → IsIdent E.xidStart E.xidContinue p ∧ ∀ ℓ e, N = .expr ℓ e → ℓ ≤ 12

theorem fitParams_none : FitParams E (fun _ => none) := fun _ _ h => by cases h

theorem paramIndex_isMem {ps : List Str} {p : Str} {i : Nat} (h : Spec.paramIndex ps p = some i) : p ∈ ps := by
  by_cases hp : p ∈ ps
  · exact hp
  · rw [paramIndex_notMem hp] at h; cases h

theorem fitParams_bind {params : List Str} {Ns : List Node} (hp : ∀ p ∈ params, IsIdent E.xidStart E.xidContinue p)
    (hN : ∀ (i : Nat) N, Ns[i]? = some N → ∀ ℓ e, N = .expr ℓ e → ℓ ≤ 12) : FitParams E (Spec.bindNodes params Ns) := by
  intro p N h
  unfold Spec.bindNodes at h
  cases hi : Spec.paramIndex params p with
  | none => rw [hi] at h; cases h
  | some i => rw [hi] at h; exact ⟨hp p (paramIndex_isMem hi), hN i N h⟩

theorem binaryOps_level {ℓ : Nat} {p : Str} {op : BinOp} (h : (ℓ, p, op) ∈ Spec.binaryOps) : ℓ ≤ 12 := by
  have : ∀ x ∈ Spec.binaryOps, x.1 ≤ 12 := by decide
  exact this _ h

theorem stands_level {S : List Str} {ρ : Str → Option Node} {N : Node} {ws : List Str} (h : Stands E D S ρ N ws) (hρ : FitParams E ρ) :
    ∀ ℓ e, N = .expr ℓ e → ℓ ≤ 12 := by
  induction h with
  | param h => exact (hρ _ _ h).2
  | object _ _ _ ih => exact ih fitParams_none
  | @macroCall S ρ f params body args Ns N _ _ hp _ hl hl' _ _ iha ih =>
    refine ih (fitParams_bind hp fun i N hN => ?_)
    cases ha : args[i]? with
    | none =>
      rw [List.getElem?_eq_none_iff] at ha
      have := (List.getElem?_eq_some_iff.1 hN).1
      omega
    | some a => exact iha i a N ha hN hρ
  | macroCall0 _ _ _ ih => exact ih fitParams_none
  | bin h => rintro _ _ ⟨⟩; exact binaryOps_level h
  | up _ h => rintro _ _ ⟨⟩; omega
  | type | ptr => rintro _ _ ⟨⟩
  | _ => rintro _ _ ⟨⟩; omega

theorem typeName_ne_nil {ts : List MacroToken} {t : Ty} (h : TypeName ts t) : ts ≠ [] := by
  cases h with
  | int hd _ _ =>
    intro he
    obtain ⟨cs, hm, hp⟩ := hd
    rw [List.map_eq_nil_iff] at he
    subst he
    have hcs := hp.symm.eq_nil
    subst hcs
    revert hm
    have : ∀ x ∈ Spec.intTable, x.1 ≠ [] := by decide
    exact fun hm => this _ hm rfl
  | ptr _ => simp
  | _ => simp

/-- What a text that is a name or a type looks like. -/
def NameShape (E : Env) (ws : List Str) : Prop :=
  ∃ w rest, ws = w :: rest ∧ IsIdent E.xidStart E.xidContinue w ∧
    (rest = [] ∨ ∃ v rest', rest = v :: rest' ∧ (IsIdent E.xidStart E.xidContinue v ∨ v = c!"(" ∨ v = c!"*"))

theorem stands_shape {S : List Str} {ρ : Str → Option Node} {N : Node} {ws : List Str} (h : Stands E D S ρ N ws) (hρ : FitParams E ρ) :
    (∀ ℓ e, N = .expr ℓ e → ∃ n, e = .var n) → NameShape E ws := by
  induction h with
  | name h _ => exact fun _ => ⟨_, _, rfl, h.1, .inl rfl⟩
  | param h => exact fun _ => ⟨_, _, rfl, (hρ _ _ h).1, .inl rfl⟩
  | object h _ _ _ => exact fun _ => ⟨_, _, rfl, h.1, .inl rfl⟩
  | macroCall h => exact fun _ => ⟨_, _, rfl, h.1, .inr ⟨_, _, rfl, .inr (.inl rfl)⟩⟩
  | macroCall0 h => exact fun _ => ⟨_, _, rfl, h.1, .inr ⟨_, _, rfl, .inr (.inl rfl)⟩⟩
  | @type S ρ ws t hw ht =>
    intro _
    match ws, hw, ht with
    | [], _, ht => exact absurd rfl (typeName_ne_nil ht)
    | [w], hw, _ => exact ⟨_, _, rfl, (hw w (by simp)).1, .inl rfl⟩
    | w :: v :: r, hw, _ => exact ⟨_, _, rfl, (hw w (by simp)).1, .inr ⟨_, _, rfl, .inl (hw v (by simp)).1⟩⟩
  | ptr _ ih =>
    intro _
    obtain ⟨w, rest, rfl, h1, h2⟩ := ih hρ (fun _ _ h => by cases h)
    refine ⟨w, rest ++ [c!"*"], rfl, h1, .inr ?_⟩
    rcases h2 with rfl | ⟨v, r, rfl, h⟩
    · exact ⟨_, _, rfl, .inr (.inr rfl)⟩
    · exact ⟨v, _, rfl, h⟩
  | paren _ hn _ =>
    intro h
    obtain ⟨n, rfl⟩ := h _ _ rfl
    exact absurd rfl (hn n)
  | up _ _ ih => exact fun h => ih hρ (fun _ _ he => by cases he; exact h _ _ rfl)
  | _ => exact fun h => (by obtain ⟨n, hn⟩ := h _ _ rfl; cases hn)

theorem composite_value {S : List Str} {ρ : Str → Option Node} {N : Node} {ws : List Str} (h : Stands E D S ρ N ws) (hρ : FitParams E ρ)
    (hc : Composite E ws) : ∃ ℓ e, N = .expr ℓ e ∧ ℓ ≤ 12 ∧ ∀ n, e ≠ .var n := by
  have key : ¬ NameShape E ws := by
    rintro ⟨w, rest, rfl, h1, h2⟩
    obtain ⟨w', rest', he, h3⟩ := hc
    cases he
    rcases h3 with h3 | ⟨v, r, rfl, h4, h5, h6⟩
    · exact h3 h1
    · rcases h2 with h2 | ⟨v', r', he, h2⟩
      · cases h2
      · cases he
        rcases h2 with h2 | h2 | h2
        · exact h4 h2
        · exact h5 h2
        · exact h6 h2
  cases N with
  | type t => exact absurd (stands_shape h hρ fun _ _ h => by cases h) key
  | expr ℓ e =>
    refine ⟨ℓ, e, rfl, stands_level h hρ _ _ rfl, ?_⟩
    rintro n rfl
    exact key (stands_shape h hρ fun _ _ h => by cases h; exact ⟨n, rfl⟩)

theorem stands_ups {S : List Str} {ρ : Str → Option Node} {ℓ m : Nat} {e : Expr} {ws : List Str} (h : Stands E D S ρ (.expr ℓ e) ws)
    (hℓ : ℓ ≤ m) (hm : m ≤ 12) : Stands E D S ρ (.expr m e) ws := by
  obtain ⟨k, rfl⟩ := Nat.le.dest hℓ
  clear hℓ
  induction k with
  | zero => exact h
  | succ k ih => exact .up (ℓ := ℓ + k) (ih (by omega)) (by omega)

theorem stands_wrapped {S : List Str} {ρ : Str → Option Node} {ℓ : Nat} {e : Expr} {ws : List Str} (h : Stands E D S ρ (.expr ℓ e) ws)
    (hℓ : ℓ ≤ 12) (he : ∀ n, e ≠ .var n) : Stands E D S ρ (.expr ℓ e) (wrapped ws) :=
  stands_ups (.paren (stands_ups h hℓ (Nat.le_refl _)) he) (Nat.zero_le _) hℓ

/-- With parentheses around definitions, everything stands for what it stood for. -/
theorem stands_wrap {P : List Str} (hD : ∀ x, D' x = (D x).map (Def.wrap P x)) (hP : ∀ x ∈ P, ∀ d, D x = some d → Composite E d.body)
    {S : List Str} {ρ : Str → Option Node} {N : Node} {ws : List Str} (h : Stands E D S ρ N ws) (hρ : FitParams E ρ) :
    Stands E D' S ρ N ws := by
  have stay : ∀ {S : List Str} {ρ : Str → Option Node} {x : Str}, Stays E D S ρ x → Stays E D' S ρ x := by
    intro S ρ x h
    refine ⟨h.1, h.2.1, h.2.2.1, h.2.2.2.imp_left fun hn => ?_⟩
    rw [hD, hn]; rfl
  induction h with
  | name h hk => exact .name (stay h) hk
  | param h => exact .param h
  | @object S ρ x body N hm hd hb ih =>
    have hd' := hD x
    rw [hd] at hd'
    refine .object hm hd' ?_
    by_cases hx : x ∈ P
    · obtain ⟨ℓ, e, rfl, h1, h2⟩ := composite_value hb fitParams_none (hP x hx _ hd)
      rw [if_pos hx]
      exact stands_wrapped (ih fitParams_none) h1 h2
    · rw [if_neg hx]
      exact ih fitParams_none
  | @macroCall S ρ f params body args Ns N hm hd hp hne hl hl' ha hb iha ih =>
    have hd' := hD f
    rw [hd] at hd'
    have hg : FitParams E (Spec.bindNodes params Ns) := fitParams_bind hp fun i N hN => by
      cases hai : args[i]? with
      | none =>
        rw [List.getElem?_eq_none_iff] at hai
        have := (List.getElem?_eq_some_iff.1 hN).1
        omega
      | some a => exact stands_level (ha i a N hai hN) hρ
    refine .macroCall hm hd' hp hne hl hl' (fun i a A h1 h2 => iha i a A h1 h2 hρ) ?_
    by_cases hx : f ∈ P
    · obtain ⟨ℓ, e, rfl, h1, h2⟩ := composite_value hb hg (hP f hx _ hd)
      rw [if_pos hx]
      exact stands_wrapped (ih hg) h1 h2
    · rw [if_neg hx]
      exact ih hg
  | @macroCall0 S ρ f body N hm hd hb ih =>
    have hd' := hD f
    rw [hd] at hd'
    refine .macroCall0 hm hd' ?_
    by_cases hx : f ∈ P
    · obtain ⟨ℓ, e, rfl, h1, h2⟩ := composite_value hb fitParams_none (hP f hx _ hd)
      rw [if_pos hx]
      exact stands_wrapped (ih fitParams_none) h1 h2
    · rw [if_neg hx]
      exact ih fitParams_none
  | type hw ht => exact .type (fun w hm => stay (hw w hm)) ht
  | ptr _ ih => exact .ptr (ih hρ)
  | lit h => exact .lit h
  | paren _ hn ih => exact .paren (ih hρ) hn
  | sizeOf hs _ ih => exact .sizeOf (stay hs) (ih hρ)
  | call _ hl _ ih iha => exact .call (ih hρ) hl fun i a e h1 h2 => iha i a e h1 h2 hρ
  | index _ _ ih ih' => exact .index (ih hρ) (ih' hρ)
  | member _ _ ih ih' => exact .member (ih hρ) (ih' hρ)
  | arrow _ _ ih ih' => exact .arrow (ih hρ) (ih' hρ)
  | postInc _ ih => exact .postInc (ih hρ)
  | postDec _ ih => exact .postDec (ih hρ)
  | pre h _ ih => exact .pre h (ih hρ)
  | cast _ _ ih ih' => exact .cast (ih hρ) (ih' hρ)
  | bin h _ _ ih ih' => exact .bin h (ih hρ) (ih' hρ)
  | cond _ _ _ ih ih' ih'' => exact .cond (ih hρ) (ih' hρ) (ih'' hρ)
  | assign h _ _ ih ih' => exact .assign h (ih hρ) (ih' hρ)
  | up _ hℓ ih => exact .up (ih hρ) hℓ

/-! ## The tables -/

theorem run_wrap (P : List Str) : ∀ (h : List Op) (t t' : Table), (∀ n, t' n = (t n).map (Def.wrap P n)) →
    ∀ n, (h.map (Op.wrap P)).foldl Table.step t' n = (h.foldl Table.step t n).map (Def.wrap P n) := by
  intro h
  induction h with
  | nil => exact fun _ _ ht => ht
  | cons o h ih =>
    intro t t' ht
    refine ih _ _ fun n => ?_
    have hset : ∀ (m : Str) (d : Option Def), t'.set m (d.map (Def.wrap P m)) n = (t.set m d n).map (Def.wrap P n) := by
      intro m d
      unfold Table.set
      split
      · rename_i hnm; subst hnm; rfl
      · exact ht n
    cases o with
    | defineVar m b => exact hset m (some (.var b))
    | defineFn m p b => exact hset m (some (.fn p b))
    | undefineVar m =>
      simp only [Op.wrap, Table.step, ht m]
      cases t m with
      | none => exact ht n
      | some d =>
        cases d with
        | var b => exact hset m none
        | fn p b => exact ht n
    | undefineFn m =>
      simp only [Op.wrap, Table.step, ht m]
      cases t m with
      | none => exact ht n
      | some d =>
        cases d with
        | fn p b => exact hset m none
        | var b => exact ht n

theorem table_wrap (P : List Str) (h : List Op) (n : Str) : Table.run (h.map (Op.wrap P)) n = (Table.run h n).map (Def.wrap P n) :=
  run_wrap P h Table.empty Table.empty (fun _ => rfl) n

theorem mem_ifWrapped {P : List Str} {x : Str} {b : List Str} {s : Str} (h : s ∈ (if x ∈ P then wrapped b else b)) :
    s = c!"(" ∨ s = c!")" ∨ s ∈ b := by
  split at h
  · simp only [wrapped, List.mem_cons, List.mem_append, List.not_mem_nil, or_false] at h
    rcases h with h | h | h
    · exact .inl h
    · exact .inr (.inr h)
    · exact .inr (.inl h)
  · exact .inr (.inr h)

theorem plain_wrap {nm : Str → Option Str} {P : List Str} (hD : ∀ x, D' x = (D x).map (Def.wrap P x)) (hP : Spec.Plain nm D) : Spec.Plain nm D' := by
  constructor
  · intro id body hd
    rw [hD] at hd
    cases hx : D id with
    | none => rw [hx] at hd; cases hd
    | some d =>
      rw [hx] at hd
      cases d with
      | fn => cases hd
      | var b =>
        cases hd
        obtain ⟨h1, h2⟩ := hP.var id b hx
        refine ⟨fun s hs => ?_, fun hm => ?_⟩
        · rcases mem_ifWrapped hs with rfl | rfl | hs
          · decide
          · decide
          · exact h1 s hs
        · rcases mem_ifWrapped hm with h | h | h
          · exact absurd h (by decide)
          · exact absurd h (by decide)
          · exact h2 h
  · intro id params body hd
    rw [hD] at hd
    cases hx : D id with
    | none => rw [hx] at hd; cases hd
    | some d =>
      rw [hx] at hd
      cases d with
      | var => cases hd
      | fn ps b =>
        cases hd
        obtain ⟨h1, h2, h3⟩ := hP.fn id _ b hx
        refine ⟨fun s hs => ?_, fun hm => ?_, h3⟩
        · rcases mem_ifWrapped hs with rfl | rfl | hs
          · decide
          · decide
          · exact h1 s hs
        · rcases mem_ifWrapped hm with h | h | h
          · exact absurd h (by decide)
          · exact absurd h (by decide)
          · exact h2 h

theorem noBackslash_wrap {P : List Str} (hD : ∀ x, D' x = (D x).map (Def.wrap P x)) (hB : Spec.NoBackslash D) : Spec.NoBackslash D' := by
  intro id d hd s hs
  rw [hD] at hd
  cases hx : D id with
  | none => rw [hx] at hd; cases hd
  | some d' =>
    rw [hx] at hd
    have : s = c!"(" ∨ s = c!")" ∨ s ∈ d'.body := by
      cases d' with
      | var b => cases hd; exact mem_ifWrapped hs
      | fn ps b => cases hd; exact mem_ifWrapped hs
    rcases this with rfl | rfl | h
    · exact .inl (by decide)
    · exact .inl (by decide)
    · exact hB id d' hx s h

/-! ## The property -/

/-- **C111**: put parentheses around the definitions of any macros of a header.  A variable-like macro whose body stands for an expression
is then parsed as the same expression. -/
def C111_statement : Prop :=
  ∀ (E : Env), E.Lawful → ∀ (h : List Op) (P : List Str), Spec.Plain (Spec.cName E) (Table.run h) → Spec.NoBackslash (Table.run h) →
    ∀ (name : Str), IsIdent E.xidStart E.xidContinue name → ∀ (body : List Str), Table.run h name = some (.var body) →
    ∀ (e : Expr), Stands E (Table.run h) [name] (fun _ => none) (.expr 12 e) body →
      ∃ ts ts', Returns (fun k => (MacroSet.run h).expandVar E k name) (.ok ts) ∧
        Returns (fun k => (MacroSet.run (h.map (Op.wrap P))).expandVar E k name) (.ok ts') ∧
        VarMacro.parse E name ts = .ok ⟨name, .expr e⟩ ∧ VarMacro.parse E name ts' = .ok ⟨name, .expr e⟩

/-- C111, for parentheses around definitions that are not a name, a call or a type. -/
theorem C111_partial (E : Env) (L : E.Lawful) (h : List Op) (P : List Str) (hP : Spec.Plain (Spec.cName E) (Table.run h))
    (hB : Spec.NoBackslash (Table.run h)) (hc : ∀ x ∈ P, ∀ d, Table.run h x = some d → Composite E d.body)
    (name : Str) (hn : IsIdent E.xidStart E.xidContinue name) (body : List Str) (hdef : Table.run h name = some (.var body)) (e : Expr)
    (hr : Stands E (Table.run h) [name] (fun _ => none) (.expr 12 e) body) :
    ∃ ts ts', Returns (fun k => (MacroSet.run h).expandVar E k name) (.ok ts) ∧
      Returns (fun k => (MacroSet.run (h.map (Op.wrap P))).expandVar E k name) (.ok ts') ∧
      VarMacro.parse E name ts = .ok ⟨name, .expr e⟩ ∧ VarMacro.parse E name ts' = .ok ⟨name, .expr e⟩ := by
  obtain ⟨ts, h1, h2⟩ := C109 E L h hP hB name hn body hdef e hr
  have hD := table_wrap P h
  have hdef' := hD name
  rw [hdef] at hdef'
  have hr' := stands_wrap hD hc hr fitParams_none
  have hr'' : Stands E (Table.run (h.map (Op.wrap P))) [name] (fun _ => none) (.expr 12 e) (if name ∈ P then wrapped body else body) := by
    by_cases hx : name ∈ P
    · obtain ⟨_, _, h3, h4, h5⟩ := composite_value hr fitParams_none (hc name hx _ hdef)
      cases h3
      rw [if_pos hx]
      exact stands_wrapped hr' h4 h5
    · rw [if_neg hx]
      exact hr'
  obtain ⟨ts', g1, g2⟩ := C109 E L _ (plain_wrap hD hP) (noBackslash_wrap hD hB) name hn _ hdef' e hr''
  exact ⟨ts, ts', h1, g1, h2, g2⟩

/-- The same for function-like macros. -/
theorem C111_fn_partial (E : Env) (L : E.Lawful) (h : List Op) (P : List Str) (hP : Spec.Plain (Spec.cName E) (Table.run h))
    (hB : Spec.NoBackslash (Table.run h)) (hc : ∀ x ∈ P, ∀ d, Table.run h x = some d → Composite E d.body)
    (name : Str) (hn : IsIdent E.xidStart E.xidContinue name) (xs body : List Str) (hdef : Table.run h name = some (.fn xs body))
    (hxs : ∀ x ∈ xs, IsIdent E.xidStart E.xidContinue x) (e : Expr)
    (hr : Stands E (Table.run h) [name] (Spec.bindNodes xs ((List.range xs.length).map fun i => .expr 0 (.var (.arg i)))) (.expr 12 e) body) :
    ∃ ts ts', Returns (fun k => (MacroSet.run h).expandFn E k name) (.ok (xs.map .ident, ts)) ∧
      Returns (fun k => (MacroSet.run (h.map (Op.wrap P))).expandFn E k name) (.ok (xs.map .ident, ts')) ∧
      FnMacro.parse E name (xs.map .ident) ts = .ok ⟨name, xs, .expr e⟩ ∧
      FnMacro.parse E name (xs.map .ident) ts' = .ok ⟨name, xs, .expr e⟩ := by
  obtain ⟨ts, h1, h2⟩ := C109_fn E L h hP hB name hn xs body hdef hxs e hr
  have hD := table_wrap P h
  have hdef' := hD name
  rw [hdef] at hdef'
  have hg : FitParams E (Spec.bindNodes xs ((List.range xs.length).map fun i => Node.expr 0 (.var (.arg i)))) :=
    fitParams_bind hxs fun i N hN ℓ e he => by
      subst he
      rw [List.getElem?_map] at hN
      cases hi : (List.range xs.length)[i]? with
      | none => rw [hi] at hN; cases hN
      | some j => rw [hi] at hN; cases hN; omega
  have hr' := stands_wrap hD hc hr hg
  have hr'' : Stands E (Table.run (h.map (Op.wrap P))) [name]
      (Spec.bindNodes xs ((List.range xs.length).map fun i => .expr 0 (.var (.arg i)))) (.expr 12 e) (if name ∈ P then wrapped body else body) := by
    by_cases hx : name ∈ P
    · obtain ⟨_, _, h3, h4, h5⟩ := composite_value hr hg (hc name hx _ hdef)
      cases h3
      rw [if_pos hx]
      exact stands_wrapped hr' h4 h5
    · rw [if_neg hx]
      exact hr'
  obtain ⟨ts', g1, g2⟩ := C109_fn E L _ (plain_wrap hD hP) (noBackslash_wrap hD hB) name hn xs _ hdef' hxs e hr''
  exact ⟨ts, ts', h1, g1, h2, g2⟩

/-! ## Examples -/

/-- In `NEXT` nothing changes if `LEN` is defined as `(p->len)`. -/
example : ∃ ts ts', Returns (fun k => (MacroSet.run treeOps).expandVar asciiEnv k c!"NEXT") (.ok ts) ∧
    Returns (fun k => (MacroSet.run (treeOps.map (Op.wrap [c!"LEN"]))).expandVar asciiEnv k c!"NEXT") (.ok ts') ∧
    VarMacro.parse asciiEnv c!"NEXT" ts = .ok ⟨c!"NEXT", .expr nextExpr⟩ ∧ VarMacro.parse asciiEnv c!"NEXT" ts' = .ok ⟨c!"NEXT", .expr nextExpr⟩ := by
  refine C111_partial asciiEnv asciiEnv_lawful treeOps [c!"LEN"] treeOps_plain treeOps_noBackslash ?_ c!"NEXT" (isIdent_iff.1 (by decide +kernel)) _ rfl _ next_stands
  intro x hx d hd
  rw [List.mem_singleton.1 hx] at hd
  cases hd
  exact ⟨_, _, rfl, .inr ⟨_, _, rfl, fun h => absurd (isIdent_iff.2 h) (by decide +kernel), by decide, by decide⟩⟩

/-- In `LESS(y)` nothing changes if `TWICE(x)` is defined as `(x + x)`. -/
example : ∃ ts ts', Returns (fun k => (MacroSet.run treeOps).expandFn asciiEnv k c!"LESS") (.ok ([.ident c!"y"], ts)) ∧
    Returns (fun k => (MacroSet.run (treeOps.map (Op.wrap [c!"TWICE"]))).expandFn asciiEnv k c!"LESS") (.ok ([.ident c!"y"], ts')) ∧
    FnMacro.parse asciiEnv c!"LESS" [.ident c!"y"] ts = .ok ⟨c!"LESS", [c!"y"], .expr lessExpr⟩ ∧
    FnMacro.parse asciiEnv c!"LESS" [.ident c!"y"] ts' = .ok ⟨c!"LESS", [c!"y"], .expr lessExpr⟩ := by
  refine C111_fn_partial asciiEnv asciiEnv_lawful treeOps [c!"TWICE"] treeOps_plain treeOps_noBackslash ?_ c!"LESS" (isIdent_iff.1 (by decide +kernel)) [c!"y"] _ rfl
    (by intro p hp; rw [List.mem_singleton.1 hp]; exact isIdent_iff.1 (by decide +kernel)) _ less_stands
  intro x hx d hd
  rw [List.mem_singleton.1 hx] at hd
  cases hd
  exact ⟨_, _, rfl, .inr ⟨_, _, rfl, fun h => absurd (isIdent_iff.2 h) (by decide +kernel), by decide, by decide⟩⟩

/-! ## The full claim is false -/

/-- `#define N y`, `#define M N + 1`. -/
def nameOps : List Op := [.defineVar c!"N" [c!"y"], .defineVar c!"M" [c!"N", c!"+", c!"1"]]

theorem nameOps_noBackslash : Spec.NoBackslash (Table.run nameOps) := by
  refine noBackslash_of ?_
  intro id d hd
  rcases run_mem hd with ⟨b, rfl, h⟩ | ⟨p, b, rfl, h⟩ <;> simp [nameOps] at h
  rcases h with ⟨rfl, rfl⟩ | ⟨rfl, rfl⟩ <;> decide

theorem nameOps_plain : Spec.Plain (Spec.cName asciiEnv) (Table.run nameOps) := by
  have h := plain_of_check (E := asciiEnv) (h := nameOps) (by decide +kernel)
  refine ⟨h.var, fun id params body hd => ?_⟩
  rcases run_mem hd with ⟨b, h, _⟩ | ⟨_, b, h, hm⟩
  · cases h
  · simp [nameOps] at hm

/-- The full claim is false: with `#define N (y)`, `N + 1` is `(y) + 1`, and that is read as a conversion of `+1` to the type `y` (C40). -/
theorem C111_false : ¬ C111_statement := by
  intro h
  have one : Spec.CToken asciiEnv c!"1" (.lit (.int ⟨1, none⟩)) :=
    .int (s := c!"1") (t := []) (v := 1) (.dec (ds := [1]) (s := c!"1") (.cons ⟨by decide, .inl (by decide)⟩ .nil) (by decide) (by decide)) (by decide) (by decide)
  have hr : Stands asciiEnv (Table.run nameOps) [c!"M"] (fun _ => none) (.expr 12 (.bin (.var (.plain c!"y")) .add (.lit (.int ⟨1, none⟩)))) [c!"N", c!"+", c!"1"] := by
    refine stands_ups (.bin (ℓ := 3) (p := c!"+") (op := .add) (ws := [c!"N"]) (by decide) (stands_ups (ℓ := 0) ?_ (by decide) (by decide))
      (stands_ups (.lit one) (by decide) (by decide))) (by decide) (by decide)
    refine .object ⟨isIdent_iff.1 (by decide +kernel), by decide, rfl, by decide⟩ rfl ?_
    exact .name ⟨isIdent_iff.1 (by decide +kernel), by decide, rfl, .inl rfl⟩ (by decide)
  obtain ⟨_, ts', _, h1, _, h2⟩ := h asciiEnv asciiEnv_lawful nameOps [c!"N"] nameOps_plain nameOps_noBackslash c!"M" (isIdent_iff.1 (by decide +kernel)) _ rfl _ hr
  have hx : Returns (fun k => (MacroSet.run (nameOps.map (Op.wrap [c!"N"]))).expandVar asciiEnv k c!"M")
      (.ok [.punct c!"(", .ident c!"y", .punct c!")", .punct c!"+", .lit (.int ⟨1, none⟩)]) := ⟨by simp, 6, rfl⟩
  have h3 := Returns.unique (fun _ _ hnm => expandVar_le asciiEnv _ hnm _) h1 hx
  cases h3
  have h4 : VarMacro.parse asciiEnv c!"M" [.punct c!"(", .ident c!"y", .punct c!")", .punct c!"+", .lit (.int ⟨1, none⟩)] =
    .ok ⟨c!"M", .expr (.cast (.ident (.plain c!"y") false) (.un .plus (.lit (.int ⟨1, none⟩))))⟩ := by rfl
  rw [h4] at h2
  cases h2

end CMacro
