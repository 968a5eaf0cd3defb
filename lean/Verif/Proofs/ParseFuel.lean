import Verif.Props.Logic
import Verif.Proofs.Parser

/-!
# The depth bound of the parsers never matters

A recursive call is made only after a token has been consumed, so a bound above the number of tokens
gives the same result as any larger one.
-/

namespace CMacro
open Parser

/-- Equal on inputs shorter than `k`. -/
def AgreeOn {σ α : Type} (k : Nat) (p q : Parser σ α) : Prop := ∀ i, i.length < k → p i = q i

/-- Consumes something. -/
def Strict {σ α : Type} (p : Parser σ α) : Prop := ∀ i a r, p i = some (a, r) → r.length < i.length

theorem Eats.shrinks {σ α : Type} {S : σ → Prop} {p : Parser σ α} (h : Eats S p) : Shrinks p := by
  intro i a r hp
  obtain ⟨c, rfl, _⟩ := h _ _ _ hp
  simp

namespace AgreeOn
variable {σ α β γ : Type} {k : Nat}

theorem rfl {p : Parser σ α} : AgreeOn k p p := fun _ _ => Eq.refl _

theorem map {p q : Parser σ α} (h : AgreeOn k p q) (f : α → β) : AgreeOn k (Parser.map p f) (Parser.map q f) := by
  intro i hi; simp only [Parser.map, h i hi]

theorem mapOpt {p q : Parser σ α} (h : AgreeOn k p q) (f : α → Option β) :
    AgreeOn k (Parser.mapOpt p f) (Parser.mapOpt q f) := by
  intro i hi; simp only [Parser.mapOpt, h i hi]

theorem opt {p q : Parser σ α} (h : AgreeOn k p q) : AgreeOn k (Parser.opt p) (Parser.opt q) := by
  intro i hi; simp only [Parser.opt, h i hi]

theorem or {p q p' q' : Parser σ α} (h : AgreeOn k p p') (h' : AgreeOn k q q') :
    AgreeOn k (Parser.or p q) (Parser.or p' q') := by
  intro i hi; simp only [Parser.or, h i hi, h' i hi]

theorem seq {p p' : Parser σ α} {q q' : Parser σ β} (h : AgreeOn k p p') (hs : Shrinks p) (h' : AgreeOn k q q') :
    AgreeOn k (Parser.seq p q) (Parser.seq p' q') := by
  intro i hi
  simp only [Parser.seq, ← h i hi]
  split
  · rename_i hp
    have := hs _ _ _ hp
    rw [h' _ (by omega)]
  · exact Eq.refl _

/-- After a token the second parsers need only agree on shorter inputs. -/
theorem after {p : Parser σ α} {q q' : Parser σ β} (hs : Strict p) (h' : AgreeOn k q q') :
    AgreeOn (k + 1) (Parser.seq p q) (Parser.seq p q') := by
  intro i hi
  simp only [Parser.seq]
  split
  · rename_i hp
    have := hs _ _ _ hp
    rw [h' _ (by omega)]
  · exact Eq.refl _

theorem many0F {p q : Parser σ α} (h : AgreeOn k p q) (hs : Shrinks p) :
    ∀ n, AgreeOn k (Parser.many0F p n) (Parser.many0F q n)
  | 0 => rfl
  | n + 1 => by
    intro i hi
    simp only [Parser.many0F, ← h i hi]
    split
    · exact Eq.refl _
    · rename_i hp
      have := hs _ _ _ hp
      rw [many0F h hs n _ (by omega)]

theorem many0 {p q : Parser σ α} (h : AgreeOn k p q) (hs : Shrinks p) :
    AgreeOn k (Parser.many0 p) (Parser.many0 q) := fun i hi => many0F h hs _ i hi

theorem sepList0 {s : Parser σ β} {p q : Parser σ α} (h : AgreeOn k p q) (hs : Shrinks p) (hss : Shrinks s) :
    AgreeOn k (Parser.sepList0 s p) (Parser.sepList0 s q) := by
  intro i hi
  simp only [Parser.sepList0, ← h i hi]
  split
  · exact Eq.refl _
  · rename_i hp
    have := hs _ _ _ hp
    have hp' : AgreeOn k (Parser.preceded s p) (Parser.preceded s q) := (seq rfl hss h).map _
    rw [many0 hp' (.preceded hss hs) _ (by omega)]

end AgreeOn

theorem Strict.seq {σ α β : Type} {p : Parser σ α} {q : Parser σ β} (h : Strict p) (h' : Shrinks q) : Strict (Parser.seq p q) := by
  intro i a r hi
  unfold Parser.seq at hi
  split at hi
  · rename_i hp
    have := h _ _ _ hp
    split at hi
    · rename_i hq; have := h' _ _ _ hq; cases hi; omega
    · cases hi
  · cases hi

theorem Strict.seq' {σ α β : Type} {p : Parser σ α} {q : Parser σ β} (h : Shrinks p) (h' : Strict q) : Strict (Parser.seq p q) := by
  intro i a r hi
  unfold Parser.seq at hi
  split at hi
  · rename_i hp
    have := h _ _ _ hp
    split at hi
    · rename_i hq; have := h' _ _ _ hq; cases hi; omega
    · cases hi
  · cases hi

theorem Strict.map {σ α β : Type} {p : Parser σ α} (h : Strict p) (f : α → β) : Strict (Parser.map p f) := by
  intro i a r hi
  unfold Parser.map at hi
  split at hi
  · rename_i hp; cases hi; exact h _ _ _ hp
  · cases hi

theorem Strict.or {σ α : Type} {p q : Parser σ α} (h : Strict p) (h' : Strict q) : Strict (Parser.or p q) := by
  intro i a r hi
  unfold Parser.or at hi
  split at hi
  · rename_i hp; cases hi; exact h _ _ _ hp
  · exact h' _ _ _ hi

theorem strict_one {α : Type} (f : MacroToken → Option α) : Strict (Parser.mapOpt takeOne f) := by
  intro i a r hi
  cases i with
  | nil => cases hi
  | cons t i =>
    unfold Parser.mapOpt at hi
    simp only [takeOne, satisfy, if_true] at hi
    split at hi
    · cases hi; simp
    · cases hi

theorem strict_punct (p : Str) : Strict (punct p) := strict_one _
theorem strict_keyword (p : Str) : Strict (keyword p) := strict_one _
theorem shrinks_meta : Shrinks «meta» := eats_meta.shrinks

theorem Strict.shrinks {σ α : Type} {p : Parser σ α} (h : Strict p) : Shrinks p := fun i a r hp => Nat.le_of_lt (h i a r hp)

theorem strict_mid (p : Str) : Strict (delimited «meta» (punct p) «meta») :=
  .map (.seq (.map (.seq' shrinks_meta (strict_punct p)) _) shrinks_meta) _

theorem agree_paren {k : Nat} {α : Type} {p q : TParser α} (h : AgreeOn k p q) (hs : Shrinks p) :
    AgreeOn (k + 1) (parenthesized p) (parenthesized q) := by
  have hd : Strict (seq (punct c!"(") «meta») := .seq (strict_punct _) shrinks_meta
  exact .map (.seq (.map (.after hd h) _) (.preceded hd.shrinks hs) .rfl) _

/-- The recursive parsers agree on short inputs. -/
structure AgreeRec (k : Nat) (R R' : Rec) : Prop where
  prec2 : AgreeOn k R.prec2 R'.prec2
  prec13 : AgreeOn k R.prec13 R'.prec13
  expr : AgreeOn k R.expr R'.expr

variable {E : Env} {k : Nat} {R R' : Rec}

theorem agree_factor (hr : EatsRec R) (h : AgreeRec k R R') : AgreeOn (k + 1) (parseFactor E R) (parseFactor E R') :=
  .or .rfl <| .or .rfl <| .or .rfl <| .or .rfl (agree_paren h.expr hr.expr.shrinks)

theorem agree_access (hr : EatsRec R) (h : AgreeRec k R R') : AgreeOn (k + 1) (parseAccess E R) (parseAccess E R') := by
  have hc := (strict_mid c!",").shrinks
  have hb : Strict (terminated (punct c!"[") «meta») := .map (.seq (strict_punct _) shrinks_meta) _
  refine .map (.seq .rfl shrinks_meta (.or (.map (agree_paren (.sepList0 h.expr hr.expr.shrinks hc) ?_) _)
    (.or .rfl (.or (.map (.map (.seq (.map (.after hb h.expr) _) (.preceded hb.shrinks hr.expr.shrinks) .rfl) _) _)
      .rfl)))) _
  have := hr.expr
  exact Eats.shrinks (S := NotLogic) (by eats)

theorem agree_prec1 (hr : EatsRec R) (h : AgreeRec k R R') : AgreeOn (k + 1) (prec1 E R) (prec1 E R') := by
  intro i hi
  simp only [prec1, ← agree_factor (E := E) hr h i hi]
  split
  · rfl
  · rename_i hp
    have := (eats_factor E hr).shrinks _ _ _ hp
    exact AgreeOn.mapOpt (.many0 (agree_access hr h) (eats_access E hr).shrinks) _ _ (by omega)

theorem strict_prefixOp : Strict (terminated prefixOp «meta») := by
  refine .map (.seq ?_ shrinks_meta) _
  unfold prefixOp
  repeat (first | exact .map (strict_punct _) _ | refine .or (.map (strict_punct _) _) ?_)

theorem strict_parenTy : Strict (parenthesized (parseTy E)) := by
  have hd : Strict (seq (punct c!"(") «meta») := .seq (strict_punct _) shrinks_meta
  exact .map (.seq (.map (.seq hd (eats_ty E).shrinks) _) (Shrinks.seq shrinks_meta (strict_punct _).shrinks)) _

theorem agree_prec2 (hr : EatsRec R) (h : AgreeRec k R R') : AgreeOn (k + 1) (prec2 E R) (prec2 E R') :=
  .or (.map (.after strict_parenTy h.prec2) _) (.or (.map (.after strict_prefixOp h.prec2) _) (agree_prec1 hr h))

theorem agree_binLevel {n : Nat} {s s' : TParser Expr} {op : TParser BinOp} (h : AgreeOn n s s') (hs : Eats NotLogic s)
    (ho : Eats NotLogic op) : AgreeOn n (binLevel s op) (binLevel s' op) := by
  intro i hi
  simp only [binLevel, ← h i hi]
  split
  · rfl
  · rename_i hp
    have := hs.shrinks _ _ _ hp
    have hd : Eats NotLogic (delimited «meta» op «meta») := by eats
    exact AgreeOn.map (.many0 (.seq .rfl hd.shrinks h) (.seq hd.shrinks hs.shrinks)) _ _ (by omega)

theorem agree_prec10 (hr : EatsRec R) (h : AgreeRec k R R') : AgreeOn (k + 1) (prec10 E R) (prec10 E R') := by
  have e2 := eats_prec2 E hr
  have o3 : Eats NotLogic op3 := by unfold op3; eats
  have o4 : Eats NotLogic op4 := by unfold op4; eats
  have o5 : Eats NotLogic op5 := by unfold op5; eats
  have o6 : Eats NotLogic op6 := by unfold op6; eats
  have o7 : Eats NotLogic op7 := by unfold op7; eats
  have o8 : Eats NotLogic op8 := by unfold op8; eats
  have o9 : Eats NotLogic op9 := by unfold op9; eats
  have o10 : Eats NotLogic op10 := by unfold op10; eats
  have e3 := eats_binLevel e2 o3
  have e4 := eats_binLevel e3 o4
  have e5 := eats_binLevel e4 o5
  have e6 := eats_binLevel e5 o6
  have e7 := eats_binLevel e6 o7
  have e8 := eats_binLevel e7 o8
  have e9 := eats_binLevel e8 o9
  exact agree_binLevel (agree_binLevel (agree_binLevel (agree_binLevel (agree_binLevel (agree_binLevel (agree_binLevel
    (agree_binLevel (agree_prec2 hr h) e2 o3) e3 o4) e4 o5) e5 o6) e6 o7) e7 o8) e8 o9) e9 o10

theorem agree_prec13 (hr : EatsRec R) (h : AgreeRec k R R') : AgreeOn (k + 1) (prec13 E R) (prec13 E R') := by
  intro i hi
  have h10 := agree_prec10 (E := E) hr h i hi
  have hsh := (eats_prec10 E hr).shrinks i
  unfold prec13
  rw [← h10]
  generalize prec10 E R i = o at *
  rcases o with _ | ⟨c, r⟩
  · rfl
  · have := hsh _ _ rfl
    have hst := strict_mid c!"?" r
    dsimp only
    generalize delimited «meta» (punct c!"?") «meta» r = o at *
    rcases o with _ | ⟨_, r2⟩
    · rfl
    · have := hst _ _ rfl
      have hl : r2.length < k := by omega
      have hm : AgreeOn k (preceded (delimited «meta» (punct c!":") «meta») R.prec13)
          (preceded (delimited «meta» (punct c!":") «meta») R'.prec13) :=
        .map (.seq .rfl (strict_mid c!":").shrinks h.prec13) _
      exact (AgreeOn.map (.seq h.expr hr.expr.shrinks hm) _) r2 hl

theorem strict_op14 : Strict (delimited «meta» op14 «meta») := by
  refine .map (.seq (.map (.seq' shrinks_meta ?_) _) shrinks_meta) _
  unfold op14
  repeat (first | exact .map (strict_punct _) _ | refine .or (.map (strict_punct _) _) ?_)

theorem agree_prec14 (hr : EatsRec R) (h : AgreeRec k R R') : AgreeOn (k + 1) (prec14 E R) (prec14 E R') := by
  intro i hi
  have h13 := agree_prec13 (E := E) hr h i hi
  have hsh := (eats_prec13 E hr).shrinks i
  unfold prec14
  rw [← h13]
  generalize prec13 E R i = o at *
  rcases o with _ | ⟨t, r⟩
  · rfl
  · have := hsh _ _ rfl
    have hl : r.length < k + 1 := by omega
    have hm : AgreeOn (k + 1) (seq (delimited «meta» op14 «meta») R.expr) (seq (delimited «meta» op14 «meta») R'.expr) :=
      .after strict_op14 h.expr
    exact (AgreeOn.map (.many0 hm (.seq strict_op14.shrinks hr.expr.shrinks)) _) r hl

theorem agree_tie (E : Env) : ∀ k n m, k ≤ n → k ≤ m → AgreeRec k (tie E n) (tie E m)
  | 0, _, _, _, _ => ⟨fun _ h => by omega, fun _ h => by omega, fun _ h => by omega⟩
  | k + 1, n, m, hn, hm => by
    obtain ⟨n, rfl⟩ : ∃ n', n = n' + 1 := ⟨n - 1, by omega⟩
    obtain ⟨m, rfl⟩ : ∃ m', m = m' + 1 := ⟨m - 1, by omega⟩
    have h := agree_tie E k n m (by omega) (by omega)
    have hr := eats_tie E n
    exact ⟨agree_prec2 hr h, agree_prec13 hr h, agree_prec14 hr h⟩

/-- More depth than tokens gives the result of `parseExpr`. -/
theorem tie_stable (E : Env) {n : Nat} {i : List MacroToken} (h : i.length < n) : (tie E n).expr i = parseExpr E i :=
  (agree_tie E (i.length + 1) n (i.length + 1) h (Nat.le_refl _)).expr i (Nat.lt_succ_self _)

/-- `parseExpr` satisfies the equation of `Expr::parse`, with itself in place of the bounded parsers. -/
theorem parseExpr_eq (E : Env) (i : List MacroToken) :
    parseExpr E i = prec14 E ⟨fun i => (tie E (i.length + 1)).prec2 i, fun i => (tie E (i.length + 1)).prec13 i, parseExpr E⟩ i := by
  have h : AgreeRec i.length (tie E i.length)
      ⟨fun i => (tie E (i.length + 1)).prec2 i, fun i => (tie E (i.length + 1)).prec13 i, parseExpr E⟩ := by
    refine ⟨fun j hj => ?_, fun j hj => ?_, fun j hj => tie_stable E hj⟩
    · exact (agree_tie E (j.length + 1) _ (j.length + 1) hj (Nat.le_refl _)).prec2 j (Nat.lt_succ_self _)
    · exact (agree_tie E (j.length + 1) _ (j.length + 1) hj (Nat.le_refl _)).prec13 j (Nat.lt_succ_self _)
  exact agree_prec14 (eats_tie E _) h i (Nat.lt_succ_self _)

/-! ## Statements -/

theorem agree_single (E : Env) : ∀ k n m, k ≤ n → k ≤ m → AgreeOn k (parseSingle E n) (parseSingle E m)
  | 0, _, _, _, _ => fun _ h => by omega
  | k + 1, n, m, hn, hm => by
    obtain ⟨n, rfl⟩ : ∃ n', n = n' + 1 := ⟨n - 1, by omega⟩
    obtain ⟨m, rfl⟩ : ∃ m', m = m' + 1 := ⟨m - 1, by omega⟩
    have h := agree_single E k n m (by omega) (by omega)
    have hs := (eats_single E n).shrinks
    have hx := (eats_paren (eats_expr E)).shrinks
    have hb : AgreeOn k (Parser.map (parseSingle E n) Stmt.toBlock) (Parser.map (parseSingle E m) Stmt.toBlock) := h.map _
    have hif : Strict (terminated (keyword c!"if") «meta») := .map (.seq (strict_keyword _) shrinks_meta) _
    have hdo : Strict (terminated (keyword c!"do") «meta») := .map (.seq (strict_keyword _) shrinks_meta) _
    have hbr : Strict (terminated (punct c!"{") «meta») := .map (.seq (strict_punct _) shrinks_meta) _
    have hel : Shrinks (delimited «meta» (keyword c!"else") «meta») := (by eats : Eats NotLogic _).shrinks
    have hcond : Strict (preceded (terminated (keyword c!"if") «meta») (parenthesized (parseExpr E))) := .map (.seq hif hx) _
    unfold parseSingle
    refine .or .rfl (.or (.map (.after hcond (.seq hb (hs.map _) (.opt (.map (.seq .rfl hel hb) _)))) _) (.or ?_ (.or ?_ .rfl)))
    · exact .map (.map (.after hdo (.seq hb (hs.map _) .rfl)) _) _
    · have hm : AgreeOn k (many0 (preceded «meta» (parseSingle E n))) (many0 (preceded «meta» (parseSingle E m))) :=
        .many0 (.map (.seq .rfl shrinks_meta h) _) (.preceded shrinks_meta hs)
      exact .map (.map (.seq (.map (.after hbr hm) _) (.preceded hbr.shrinks (.many0 (.preceded shrinks_meta hs))) .rfl) _) _

/-- More depth than tokens changes nothing. -/
theorem single_stable (E : Env) {n m : Nat} {i : List MacroToken} (hn : i.length < n) (hm : i.length < m) :
    parseSingle E n i = parseSingle E m i :=
  agree_single E (i.length + 1) n m hn hm i (Nat.lt_succ_self _)

end CMacro
