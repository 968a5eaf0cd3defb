import Verif.Spec.Trees
import Verif.Proofs.Eval
import Verif.Props.FnTotal

/-!
# Lemmas for C109
-/

namespace CMacro
open Spec (Op Def Table Item Expands ExpandsAll IsIdent Gram ArgText Balanced BodyText CToken Node Stands Stays IsMacro TypeName)

variable {E : Env} {D : Table} {S O : List Str}

/-- Names in the text that are not marked are not replaced. -/
def FixedText (D : Table) (S : List Str) (is : List Item) : Prop := ∀ id, .name id false ∈ is → id ∉ S ∧ D id = none

theorem fixedText_expands {nm : Str → Option Str} {is : List Item} (h : FixedText D S is) : Expands nm D S is is := by
  induction is with
  | nil => exact .nil
  | cons i is ih =>
    have ih := ih fun id hm => h id (List.mem_cons_of_mem _ hm)
    cases i with
    | other s => exact .other ih
    | name id p =>
      cases p with
      | true => exact .painted ih
      | false => exact .undefined (h id List.mem_cons_self).1 (h id List.mem_cons_self).2 ih

theorem fixedText_append {a b : List Item} (ha : FixedText D S a) (hb : FixedText D S b) : FixedText D S (a ++ b) := by
  intro id hm
  rcases List.mem_append.1 hm with hm | hm
  · exact ha id hm
  · exact hb id hm

theorem bodyText_append {a b : List Item} {ts us : List MacroToken} (ha : BodyText E O a ts) (hb : BodyText E O b us) :
    BodyText E O (a ++ b) (ts ++ us) := by
  induction ha with
  | nil => exact hb
  | name _ ih => exact .name ih
  | param h _ ih => exact .param h ih
  | other h1 h2 h3 _ ih => exact .other h1 h2 h3 ih

/-- Text after expansion, and its tokens; `b` says whether there may be commas outside brackets. -/
structure Done (E : Env) (O : List Str) (D : Table) (S : List Str) (b : Bool) (out : List Item) (ts : List MacroToken) : Prop where
  nested : brun b [] out = some []
  fixed : FixedText D S out
  toks : BodyText E O out ts

/-- Text that expands to such text. -/
def Gives (E : Env) (O : List Str) (D : Table) (S : List Str) (b : Bool) (is : List Item) (ts : List MacroToken) : Prop :=
  brun b [] is = some [] ∧ ∃ out, Expands (Spec.cName E) D S is out ∧ Done E O D S b out ts

theorem done_gives {b : Bool} {out : List Item} {ts : List MacroToken} (h : Done E O D S b out ts) : Gives E O D S b out ts :=
  ⟨h.nested, out, fixedText_expands h.fixed, h⟩

theorem Gives.append {b : Bool} {is js : List Item} {ts us : List MacroToken} (h : Gives E O D S b is ts) (h' : Gives E O D S b js us) :
    Gives E O D S b (is ++ js) (ts ++ us) := by
  obtain ⟨h1, out, h2, h3⟩ := h
  obtain ⟨g1, out', g2, g3⟩ := h'
  refine ⟨?_, _, Expands.append' h2 g2, ?_, fixedText_append h3.fixed g3.fixed, bodyText_append h3.toks g3.toks⟩
  · rw [brun_append, h1]; exact g1
  · rw [brun_append, h3.nested]; exact g3.nested

theorem Gives.top {is : List Item} {ts : List MacroToken} (h : Gives E O D S false is ts) : Gives E O D S true is ts := by
  obtain ⟨h1, out, h2, h3⟩ := h
  exact ⟨brun_top h1, out, h2, brun_top h3.nested, h3.fixed, h3.toks⟩

theorem gives_nil {b : Bool} : Gives E O D S b [] [] := ⟨rfl, [], .nil, rfl, (fun _ h => by cases h), .nil⟩

/-- The parameters of the macro are names. -/
def AllNames (E : Env) (O : List Str) : Prop := ∀ p ∈ O, IsIdent E.xidStart E.xidContinue p

theorem notIdent_cToken (L : E.Lawful) {s : Str} {t : MacroToken} (h : CToken E s t) (ht : ∀ id, t ≠ .ident id) :
    ¬ IsIdent E.xidStart E.xidContinue s ∧ s ≠ c!"__VA_ARGS__" := by
  have hf := fromStr_cToken L h
  have hv : s ≠ c!"__VA_ARGS__" := by
    rintro rfl
    have : Token.fromStr E c!"__VA_ARGS__" = .varArgs := rfl
    rw [this] at hf
    cases t with
    | ident => exact ht _ rfl
    | _ => cases hf
  refine ⟨fun hi => ?_, hv⟩
  have := fromStr_cToken L (CToken.ident (E := E) hi hv)
  rw [this] at hf
  cases t with
  | ident => exact ht _ rfl
  | _ => cases hf

/-- A token of C that is no name. -/
theorem gives_other (L : E.Lawful) (hO : AllNames E O) {b : Bool} {s : Str} {t : MacroToken} (h : CToken E s t) (ht : ∀ id, t ≠ .ident id)
    (hb : brun b [] [.other s] = some []) : Gives E O D S b [.other s] [t] := by
  obtain ⟨h1, h2⟩ := notIdent_cToken L h ht
  refine ⟨hb, _, .other .nil, hb, ?_, .other (fun hm => h1 (hO _ hm)) h2 h .nil⟩
  intro id hm
  simp at hm

theorem gives_punct (L : E.Lawful) (hO : AllNames E O) {b : Bool} {s : Str} (h : s ∈ Spec.punctuators) (hn : ¬ Spec.IsBracket s)
    (hc : b = true ∨ s ≠ c!",") : Gives E O D S b [.other s] [.punct s] := by
  refine gives_other L hO (.punct h) (by simp) ?_
  rcases hc with rfl | hc
  · obtain ⟨h1, h2⟩ := not_isBracket hn
    simp [brun, h1, h2]
  · cases b with
    | false => exact argText_brun (argText_one hn hc)
    | true => exact brun_top (argText_brun (argText_one hn hc))

/-- Brackets around a text. -/
theorem Gives.group (L : E.Lawful) (hO : AllNames E O) {o c : Str} (hoc : Spec.Brackets o c) {is : List Item} {ts : List MacroToken}
    (h : Gives E O D S true is ts) : Gives E O D S false (.other o :: (is ++ [.other c])) (.punct o :: (ts ++ [.punct c])) := by
  obtain ⟨h1, out, h2, h3⟩ := h
  have hb : ∀ {is : List Item}, brun true [] is = some [] → brun false [] (.other o :: (is ++ [.other c])) = some [] := fun h =>
    argText_brun (.group hoc (brun_balanced _ _ (Nat.le_refl _) h) .nil)
  have ho : o ∈ Spec.punctuators ∧ c ∈ Spec.punctuators := by
    rcases hoc with ⟨rfl, rfl⟩ | ⟨rfl, rfl⟩ | ⟨rfl, rfl⟩ <;> decide
  have n1 := notIdent_cToken L (CToken.punct (E := E) ho.1) (by simp)
  have n2 := notIdent_cToken L (CToken.punct (E := E) ho.2) (by simp)
  refine ⟨hb h1, _, .other (Expands.append' h2 (.other .nil)), hb h3.nested, ?_, ?_⟩
  · intro id hm
    simp at hm
    exact h3.fixed id hm
  · exact .other (fun hm => n1.1 (hO _ hm)) n1.2 (.punct ho.1)
      (bodyText_append h3.toks (.other (fun hm => n2.1 (hO _ hm)) n2.2 (.punct ho.2) .nil))

/-- A name that stays. -/
theorem gives_stays {ρ : Str → Option Node} {x : Str} (h : Stays E D S ρ x) : Gives E O D S false [.name x false] [.ident x] := by
  by_cases hx : x ∈ S
  · refine ⟨rfl, [.name x true], .hidden hx .nil, rfl, ?_, .name .nil⟩
    intro id hm
    simp at hm
  · have hd := h.2.2.2.resolve_right hx
    refine ⟨rfl, [.name x false], .undefined hx hd .nil, rfl, ?_, .name .nil⟩
    intro id hm
    simp at hm
    subst hm
    exact ⟨hx, hd⟩

/-! ## Trees -/

/-- The tokens are what the node says. -/
def NodeOf : Node → List MacroToken → Prop
  | .expr ℓ e, ts => Gram ℓ ts e
  | .type t, ts => TypeName ts t

/-- The tokens of a variable are one name. -/
theorem gram_var {ℓ : Nat} {ts : List MacroToken} {n : IdentExpr} (h : Gram ℓ ts (.var n)) : ∃ t, ts = [t] ∧ Spec.Name t n := by
  generalize he : Expr.var n = e at h
  refine Gram.rec (motive_1 := fun _ ts e _ => .var n = e → ∃ t, ts = [t] ∧ Spec.Name t n) (motive_2 := fun _ _ _ => True)
    ?_ ?_ ?_ ?_ ?_ ?_ ?_ ?_ ?_ ?_ ?_ ?_ ?_ ?_ ?_ ?_ ?_ ?_ ?_ h he
  case refine_1 => rintro t m hm ⟨⟩; exact ⟨t, rfl, hm⟩
  case refine_3 =>
    rintro ts e _ hn ih he
    obtain ⟨t, rfl, ht⟩ := ih he
    exact absurd rfl (hn t n ht)
  case refine_16 => rintro ℓ ts e _ _ ih he; exact ih he
  all_goals first | (intros; trivial) | (intros; rename_i h; cases h)

theorem gram_noName {ts : List MacroToken} {e : Expr} (h : Gram 12 ts e) (he : ∀ n, e ≠ .var n) : NotName ts := by
  rintro t n hn rfl
  exact he n (C35_unambiguous h ((Gram.name hn).ups (Nat.zero_le _) (Nat.le_refl _)))

/-- Text that expands to the node. -/
def MakesNode (E : Env) (O : List Str) (D : Table) (S : List Str) (N : Node) (is : List Item) : Prop :=
  ∃ ts, Gives E O D S false is ts ∧ NodeOf N ts

/-- Expanded text of the node. -/
def IsNode (E : Env) (O : List Str) (D : Table) (S : List Str) (N : Node) (out : List Item) : Prop :=
  ∃ ts, Done E O D S false out ts ∧ NodeOf N ts

theorem done_more {f : Str} (hf : D f ≠ none) {b : Bool} {out : List Item} {ts : List MacroToken} (h : Done E O D S b out ts) :
    Done E O D (f :: S) b out ts := by
  refine ⟨h.nested, fun id hm => ?_, h.toks⟩
  obtain ⟨h1, h2⟩ := h.fixed id hm
  refine ⟨fun hm' => ?_, h2⟩
  rcases List.mem_cons.1 hm' with rfl | hm'
  · exact hf h2
  · exact h1 hm'

theorem done_less {f : Str} {b : Bool} {out : List Item} {ts : List MacroToken} (h : Done E O D (f :: S) b out ts) :
    Done E O D S b out ts :=
  ⟨h.nested, fun id hm => ⟨fun hm' => (h.fixed id hm).1 (List.mem_cons_of_mem _ hm'), (h.fixed id hm).2⟩, h.toks⟩

/-- The arguments are what the parameters stand for. -/
structure Bound (E : Env) (O : List Str) (D : Table) (S : List Str) (ps : List Str) (iss : List (List Item)) (ρ : Str → Option Node) : Prop where
  ident : ∀ p ∈ ps, IsIdent E.xidStart E.xidContinue p
  some : ∀ p N, ρ p = some N → ∃ i is, Spec.paramIndex ps p = .some i ∧ iss[i]? = .some is ∧ IsNode E O D S N is
  none : ∀ p, ρ p = none → Spec.paramIndex ps p = .none

/-- The text of the words, with the arguments in place of the parameters. -/
noncomputable abbrev lay (E : Env) (ps : List Str) (iss : List (List Item)) (ws : List Str) : List Item :=
  Spec.subst (Spec.cName E) ps iss none ws

theorem lay_append (ps : List Str) (iss : List (List Item)) (a b : List Str) : lay E ps iss (a ++ b) = lay E ps iss a ++ lay E ps iss b := by
  induction a with
  | nil => rfl
  | cons w a ih => simp only [lay, List.cons_append, Spec.subst, List.append_assoc] at ih ⊢; rw [ih]

theorem lay_cons (ps : List Str) (iss : List (List Item)) (w : Str) (b : List Str) : lay E ps iss (w :: b) = lay E ps iss [w] ++ lay E ps iss b :=
  lay_append ps iss [w] b

theorem lay_other {ps : List Str} {iss : List (List Item)} {ρ : Str → Option Node} (hb : Bound E O D S ps iss ρ) {w : Str}
    (hw : ¬ IsIdent E.xidStart E.xidContinue w) : lay E ps iss [w] = [.other w] := by
  simp only [lay, Spec.subst, paramIndex_notMem fun hm => hw (hb.ident w hm), Spec.item, Spec.cName,
    if_neg fun hi : w ≠ c!"__VA_ARGS__" ∧ IsIdent E.xidStart E.xidContinue w => hw hi.2, List.append_nil]

theorem lay_punct (L : E.Lawful) {ps : List Str} {iss : List (List Item)} {ρ : Str → Option Node} (hb : Bound E O D S ps iss ρ) {w : Str}
    (hw : w ∈ Spec.punctuators) : lay E ps iss [w] = [.other w] :=
  lay_other hb (notIdent_cToken L (CToken.punct (E := E) hw) (by simp)).1

theorem lay_name {ps : List Str} {iss : List (List Item)} {ρ : Str → Option Node} (hb : Bound E O D S ps iss ρ) {x : Str}
    (hx : IsIdent E.xidStart E.xidContinue x) (hv : x ≠ c!"__VA_ARGS__") (hρ : ρ x = none) : lay E ps iss [x] = [.name x false] := by
  simp only [lay, Spec.subst, hb.none x hρ, item_name hx hv, List.append_nil]

theorem lay_nil (iss : List (List Item)) (ws : List Str) : lay E [] iss ws = ws.map (Spec.item (Spec.cName E)) := by
  induction ws with
  | nil => rfl
  | cons w ws ih => simp only [lay, Spec.subst, Spec.paramIndex, List.map_cons, List.cons_append, List.nil_append] at ih ⊢; rw [ih]

theorem bound_nil : Bound E O D S [] [] (fun _ => none) := ⟨by simp, by simp, fun _ _ => rfl⟩

theorem lay_comma (L : E.Lawful) {ps : List Str} {iss : List (List Item)} {ρ : Str → Option Node} (hb : Bound E O D S ps iss ρ) :
    ∀ args : List (List Str), lay E ps iss (Spec.commaWords args) = Spec.commaJoin (args.map (lay E ps iss)) := by
  intro args
  induction args with
  | nil => rfl
  | cons a as ih =>
    cases as with
    | nil => rfl
    | cons b bs =>
      rw [Spec.commaWords, lay_append, lay_cons, lay_punct L hb (by decide), ih]
      · rfl
      · simp

/-- The texts of the arguments of a macro. -/
theorem all_nodes : ∀ {iss : List (List Item)} {Ns : List Node}, iss.length = Ns.length →
    (∀ (i : Nat) is N, iss[i]? = some is → Ns[i]? = some N → MakesNode E O D S N is) →
    ∃ outs : List (List Item), outs.length = Ns.length ∧ ExpandsAll (Spec.cName E) D S iss outs ∧
      (∀ is ∈ iss, ArgText is) ∧ ∀ (i : Nat) N, Ns[i]? = some N → ∃ out, outs[i]? = some out ∧ IsNode E O D S N out
  | [], [], _, _ => ⟨[], rfl, .nil, by simp, by simp⟩
  | [], _ :: _, h, _ => by simp at h
  | _ :: _, [], h, _ => by simp at h
  | is :: iss, N :: Ns, hl, h => by
    obtain ⟨ts, ⟨h0, out, h1, h2⟩, h3⟩ := h 0 is N rfl rfl
    obtain ⟨outs, g0, g1, g2, g3⟩ := all_nodes (iss := iss) (Ns := Ns) (by simpa using hl) fun i is u hi hu => h (i + 1) is u (by simpa using hi) (by simpa using hu)
    refine ⟨out :: outs, by simp [g0], .cons h1 g1, ?_, ?_⟩
    · intro x hx
      rcases List.mem_cons.1 hx with rfl | hx
      · exact argText_iff.2 h0
      · exact g2 x hx
    · intro i M hM
      cases i with
      | zero => simp at hM; subst hM; exact ⟨out, rfl, ts, h2, h3⟩
      | succ i => simpa using g3 i M (by simpa using hM)

/-- The texts of the arguments of a function. -/
theorem all_args (L : E.Lawful) (hO : AllNames E O) : ∀ {iss : List (List Item)} {es : List Expr}, iss.length = es.length →
    (∀ (i : Nat) is e, iss[i]? = some is → es[i]? = some e → MakesNode E O D S (.expr 12 e) is) →
    ∃ ts, Gives E O D S true (Spec.commaJoin iss) ts ∧ Spec.Args ts es
  | [], [], _, _ => ⟨[], gives_nil, .none⟩
  | [], _ :: _, h, _ => by simp at h
  | _ :: _, [], h, _ => by simp at h
  | [is], [e], _, h => by
    obtain ⟨ts, h1, h2⟩ := h 0 is e rfl rfl
    exact ⟨ts, h1.top, .one h2⟩
  | [_], _ :: _ :: _, h, _ => by simp at h
  | _ :: _ :: _, [_], h, _ => by simp at h
  | is :: is' :: iss, e :: e' :: es, hl, h => by
    obtain ⟨ts, h1, h2⟩ := h 0 is e rfl rfl
    obtain ⟨us, g1, g2⟩ := all_args L hO (iss := is' :: iss) (es := e' :: es) (by simpa using hl)
      fun i is u hi hu => h (i + 1) is u (by simpa using hi) (by simpa using hu)
    have hc : Gives E O D S true [.other c!","] [.punct c!","] :=
      gives_punct L hO (by decide) (by unfold Spec.IsBracket; decide) (.inl rfl)
    exact ⟨_, h1.top.append (hc.append g1), .more h2 g2⟩

theorem op_punct {p : Str} (h : p ∈ Spec.binaryOps.map (·.2.1) ++ Spec.assignOps.map (·.1) ++ Spec.prefixOps.map (·.1) ++
    [c!"*", c!".", c!"->", c!"++", c!"--", c!"?", c!":"]) : p ∈ Spec.punctuators ∧ ¬ Spec.IsBracket p ∧ p ≠ c!"," := by
  have : ∀ p ∈ Spec.binaryOps.map (·.2.1) ++ Spec.assignOps.map (·.1) ++ Spec.prefixOps.map (·.1) ++
      [c!"*", c!".", c!"->", c!"++", c!"--", c!"?", c!":"], p ∈ Spec.punctuators ∧
      ¬ (p = c!"(" ∨ p = c!")" ∨ p = c!"[" ∨ p = c!"]" ∨ p = c!"{" ∨ p = c!"}") ∧ p ≠ c!"," := by decide
  exact this p h

theorem lay_gives (L : E.Lawful) (hO : AllNames E O) {ps : List Str} {iss : List (List Item)} {ρ : Str → Option Node} (hb : Bound E O D S ps iss ρ)
    {p : Str} (h : p ∈ Spec.binaryOps.map (·.2.1) ++ Spec.assignOps.map (·.1) ++ Spec.prefixOps.map (·.1) ++
    [c!"*", c!".", c!"->", c!"++", c!"--", c!"?", c!":"]) : Gives E O D S false (lay E ps iss [p]) [.punct p] := by
  obtain ⟨h1, h2, h3⟩ := op_punct h
  rw [lay_punct L hb h1]
  exact gives_punct L hO h1 h2 (.inr h3)

theorem lay_group (L : E.Lawful) (hO : AllNames E O) {ps : List Str} {iss : List (List Item)} {ρ : Str → Option Node} (hb : Bound E O D S ps iss ρ)
    {o c : Str} (hoc : Spec.Brackets o c) {ws : List Str} {ts : List MacroToken} (h : Gives E O D S true (lay E ps iss ws) ts) :
    Gives E O D S false (lay E ps iss (o :: (ws ++ [c]))) (.punct o :: (ts ++ [.punct c])) := by
  have ho : o ∈ Spec.punctuators ∧ c ∈ Spec.punctuators := by
    rcases hoc with ⟨rfl, rfl⟩ | ⟨rfl, rfl⟩ | ⟨rfl, rfl⟩ <;> decide
  rw [lay_cons, lay_append, lay_punct L hb ho.1, lay_punct L hb ho.2]
  exact h.group L hO hoc

theorem lay_types {ps : List Str} {iss : List (List Item)} {ρ : Str → Option Node} (hb : Bound E O D S ps iss ρ) {ws : List Str}
    (h : ∀ w ∈ ws, Stays E D S ρ w) : Gives E O D S false (lay E ps iss ws) (ws.map .ident) := by
  induction ws with
  | nil => exact gives_nil
  | cons w ws ih =>
    have hw := h w List.mem_cons_self
    rw [lay_cons, lay_name hb hw.1 hw.2.1 hw.2.2.1]
    exact (gives_stays hw).append (ih fun w hm => h w (List.mem_cons_of_mem _ hm))

theorem gives_object {x : Str} {body : List Str} {N : Node} (hS : x ∉ S) (hD : D x = some (.var body))
    (h : MakesNode E O D (x :: S) N (body.map (Spec.item (Spec.cName E)))) : MakesNode E O D S N [.name x false] := by
  obtain ⟨ts, ⟨_, out, h1, h2⟩, h3⟩ := h
  have := Expands.object (H := S) (ts := []) hS hD h1 .nil
  rw [List.append_nil] at this
  exact ⟨ts, ⟨rfl, out, this, done_less h2⟩, h3⟩

/-- The text of the words expands to the node. -/
theorem stands_makes (L : E.Lawful) (hO : AllNames E O) {ρ : Str → Option Node} {N : Node} {ws : List Str} (h : Stands E D S ρ N ws) :
    ∀ ps iss, Bound E O D S ps iss ρ → MakesNode E O D S N (lay E ps iss ws) := by
  induction h with
  | name h hk =>
    intro ps iss hb
    rw [lay_name hb h.1 h.2.1 h.2.2.1]
    exact ⟨_, gives_stays h, .name (.ident hk)⟩
  | @param S ρ p N hp =>
    intro ps iss hb
    obtain ⟨i, is, h1, h2, ts, h3, h4⟩ := hb.some p N hp
    have : lay E ps iss [p] = is := by
      simp only [lay, Spec.subst, h1, List.append_nil, List.getD_eq_getElem?_getD, h2]
      rfl
    rw [this]
    exact ⟨ts, done_gives h3, h4⟩
  | @object S ρ x body N hx hD _ ih =>
    intro ps iss hb
    rw [lay_name hb hx.1 hx.2.1 hx.2.2.1]
    refine gives_object hx.2.2.2 hD ?_
    have := ih [] [] bound_nil
    rwa [lay_nil] at this
  | @macroCall S ρ f params body args Ns N hf hD hps hne hla hlv _ _ iha ih =>
    intro ps iss hb
    obtain ⟨outs, h1, h2, h3, h4⟩ := all_nodes (E := E) (O := O) (D := D) (S := S) (iss := args.map (lay E ps iss)) (Ns := Ns)
      (by rw [List.length_map, hla, hlv]) (by
        intro i is u hi hu
        rw [List.getElem?_map] at hi
        cases ha : args[i]? with
        | none => rw [ha] at hi; cases hi
        | some a => rw [ha] at hi; cases hi; exact iha i a u ha hu ps iss hb)
    obtain ⟨ts, ⟨g0, out, g1, g2⟩, g3⟩ := ih params outs ⟨hps, fun p A hp => by
        unfold Spec.bindNodes at hp
        cases hi : Spec.paramIndex params p with
        | none => rw [hi] at hp; cases hp
        | some i =>
          rw [hi] at hp
          obtain ⟨is, hs, us, hg, hn⟩ := h4 i A hp
          exact ⟨i, is, rfl, hs, us, done_more (by rw [hD]; simp) hg, hn⟩, fun p hp => by
        unfold Spec.bindNodes at hp
        cases hi : Spec.paramIndex params p with
        | none => rfl
        | some i =>
          rw [hi] at hp
          have := paramIndex_below hi
          simp only [Option.bind_some] at hp
          rw [List.getElem?_eq_none_iff] at hp
          omega⟩
    have hcall : Spec.Call (args.map (lay E ps iss))
        (.other c!"(" :: (Spec.commaJoin (args.map (lay E ps iss)) ++ [.other c!")"])) [] :=
      ⟨by simpa using hne, h3, rfl⟩
    rw [lay_cons, lay_cons _ _ c!"(", lay_name hb hf.1 hf.2.1 hf.2.2.1, lay_punct L hb (by decide), lay_append, lay_comma L hb,
      lay_punct L hb (by decide)]
    refine ⟨ts, ⟨?_, out, ?_, done_less g2⟩, g3⟩
    · have := brun_call hcall false []
      exact this
    · have hd : c!"..." ∉ params := by
        intro hm
        obtain ⟨h | h, _⟩ := hps _ hm
        · rw [L.startAscii _ (by decide)] at h; revert h; decide
        · revert h; decide
      have := Expands.call (H := S) hf.2.2.2 hD hd hcall (.inl (by simpa using hla)) h2 g1 .nil
      rwa [List.append_nil] at this
  | @macroCall0 S ρ f body N hf hD _ ih =>
    intro ps iss hb
    obtain ⟨ts, ⟨_, out, h1, h2⟩, h3⟩ := ih [] [] bound_nil
    rw [lay_cons, lay_cons _ _ c!"(", lay_name hb hf.1 hf.2.1 hf.2.2.1, lay_punct L hb (by decide), lay_punct L hb (by decide)]
    have hcall : Spec.Call [[]] ([.other c!"(", .other c!")"]) [] := ⟨by simp, by simp; exact .nil, rfl⟩
    rw [lay_nil, ← lay_nil [[]]] at h1
    have := Expands.call (H := S) hf.2.2.2 hD (by simp) hcall (.inr ⟨rfl, rfl⟩) (.cons .nil .nil) h1 .nil
    rw [List.append_nil] at this
    exact ⟨ts, ⟨rfl, out, this, done_less h2⟩, h3⟩
  | type h ht =>
    intro ps iss hb
    exact ⟨_, lay_types hb h, ht⟩
  | ptr _ ih =>
    intro ps iss hb
    obtain ⟨ts, h1, h2⟩ := ih ps iss hb
    rw [lay_append]
    exact ⟨_, h1.append (lay_gives L hO hb (by decide)), .ptr h2⟩
  | lit h =>
    intro ps iss hb
    have hn := notIdent_cToken L h (by simp)
    rw [lay_other hb hn.1]
    refine ⟨_, gives_other L hO h (by simp) ?_, .lit⟩
    have hf := fromStr_cToken L h
    refine argText_brun (argText_one ?_ ?_)
    · rintro (rfl | rfl | rfl | rfl | rfl | rfl) <;>
        · rw [fromStr_cToken L (CToken.punct (E := E) (by decide))] at hf
          cases hf
    · rintro rfl
      rw [fromStr_cToken L (CToken.punct (E := E) (by decide))] at hf
      cases hf
  | paren _ he ih =>
    intro ps iss hb
    obtain ⟨ts, h1, h2⟩ := ih ps iss hb
    exact ⟨_, lay_group L hO hb (.inl ⟨rfl, rfl⟩) h1.top, .paren h2 (gram_noName h2 he)⟩
  | sizeOf hs _ ih =>
    intro ps iss hb
    obtain ⟨ts, h1, h2⟩ := ih ps iss hb
    rw [lay_cons, lay_name hb hs.1 hs.2.1 hs.2.2.1]
    exact ⟨_, (gives_stays hs).append (lay_group L hO hb (.inl ⟨rfl, rfl⟩) h1.top), .sizeOf h2⟩
  | @call S ρ ws n args es _ hl _ ih iha =>
    intro ps iss hb
    obtain ⟨ts, h1, h2⟩ := ih ps iss hb
    obtain ⟨t, rfl, ht⟩ := gram_var h2
    obtain ⟨us, g1, g2⟩ := all_args (D := D) (S := S) L hO (iss := args.map (lay E ps iss)) (es := es) (by simpa using hl) (by
        intro i is u hi hu
        rw [List.getElem?_map] at hi
        cases ha : args[i]? with
        | none => rw [ha] at hi; cases hi
        | some a => rw [ha] at hi; cases hi; exact iha i a u ha hu ps iss hb)
    rw [← lay_comma L hb] at g1
    rw [lay_append]
    exact ⟨_, h1.append (lay_group L hO hb (.inl ⟨rfl, rfl⟩) g1), .call ht g2⟩
  | index _ _ ih ihi =>
    intro ps iss hb
    obtain ⟨ts, h1, h2⟩ := ih ps iss hb
    obtain ⟨us, g1, g2⟩ := ihi ps iss hb
    rw [lay_append]
    exact ⟨_, h1.append (lay_group L hO hb (.inr (.inl ⟨rfl, rfl⟩)) g1.top), .index h2 g2⟩
  | member _ _ ih ihn =>
    intro ps iss hb
    obtain ⟨ts, h1, h2⟩ := ih ps iss hb
    obtain ⟨us, g1, g2⟩ := ihn ps iss hb
    obtain ⟨t, rfl, ht⟩ := gram_var g2
    rw [lay_append, lay_cons]
    exact ⟨_, h1.append ((lay_gives L hO hb (by decide)).append g1), .member h2 ht⟩
  | arrow _ _ ih ihn =>
    intro ps iss hb
    obtain ⟨ts, h1, h2⟩ := ih ps iss hb
    obtain ⟨us, g1, g2⟩ := ihn ps iss hb
    obtain ⟨t, rfl, ht⟩ := gram_var g2
    rw [lay_append, lay_cons]
    exact ⟨_, h1.append ((lay_gives L hO hb (by decide)).append g1), .arrow h2 ht⟩
  | postInc _ ih =>
    intro ps iss hb
    obtain ⟨ts, h1, h2⟩ := ih ps iss hb
    rw [lay_append]
    exact ⟨_, h1.append (lay_gives L hO hb (by decide)), .postInc h2⟩
  | postDec _ ih =>
    intro ps iss hb
    obtain ⟨ts, h1, h2⟩ := ih ps iss hb
    rw [lay_append]
    exact ⟨_, h1.append (lay_gives L hO hb (by decide)), .postDec h2⟩
  | pre hp _ ih =>
    intro ps iss hb
    obtain ⟨ts, h1, h2⟩ := ih ps iss hb
    rw [lay_cons]
    refine ⟨_, (lay_gives L hO hb ?_).append h1, .pre hp h2⟩
    simp only [List.mem_append]
    exact .inl (.inr (List.mem_map.2 ⟨_, hp, rfl⟩))
  | @cast S ρ us t ws e _ _ iht ih =>
    intro ps iss hb
    obtain ⟨vs, h1, h2⟩ := iht ps iss hb
    obtain ⟨ts, g1, g2⟩ := ih ps iss hb
    have := (lay_group L hO hb (.inl ⟨rfl, rfl⟩) h1.top).append g1
    rw [← lay_append] at this
    simp only [List.cons_append, List.append_assoc, List.nil_append] at this
    exact ⟨_, this, .cast h2 g2⟩
  | bin hp _ _ iha ihb =>
    intro ps iss hb
    obtain ⟨ts, h1, h2⟩ := iha ps iss hb
    obtain ⟨us, g1, g2⟩ := ihb ps iss hb
    rw [lay_append, lay_cons]
    refine ⟨_, h1.append ((lay_gives L hO hb ?_).append g1), .bin hp h2 g2⟩
    simp only [List.mem_append]
    exact .inl (.inl (.inl (List.mem_map.2 ⟨_, hp, rfl⟩)))
  | cond _ _ _ ihc iha ihb =>
    intro ps iss hb
    obtain ⟨ts, h1, h2⟩ := ihc ps iss hb
    obtain ⟨us, g1, g2⟩ := iha ps iss hb
    obtain ⟨vs, k1, k2⟩ := ihb ps iss hb
    rw [lay_append, lay_cons, lay_append, lay_cons _ _ c!":"]
    exact ⟨_, h1.append ((lay_gives L hO hb (by decide)).append (g1.append ((lay_gives L hO hb (by decide)).append k1))), .cond h2 g2 k2⟩
  | assign hp _ _ iha ihb =>
    intro ps iss hb
    obtain ⟨ts, h1, h2⟩ := iha ps iss hb
    obtain ⟨us, g1, g2⟩ := ihb ps iss hb
    rw [lay_append, lay_cons]
    refine ⟨_, h1.append ((lay_gives L hO hb ?_).append g1), .assign hp h2 g2⟩
    simp only [List.mem_append]
    exact .inl (.inl (.inr (List.mem_map.2 ⟨_, hp, rfl⟩)))
  | up _ hℓ ih =>
    intro ps iss hb
    obtain ⟨ts, h1, h2⟩ := ih ps iss hb
    exact ⟨ts, h1, .up h2 hℓ⟩

/-! ## Macros on their own -/

theorem paramIndex_at {ps : List Str} {p : Str} {i : Nat} (h : Spec.paramIndex ps p = some i) : ps[i]? = some p := by
  induction ps generalizing i with
  | nil => cases h
  | cons q ps ih =>
    rw [Spec.paramIndex] at h
    split at h
    · next e => cases h; simp [e]
    · cases hq : Spec.paramIndex ps p with
      | none => rw [hq] at h; cases h
      | some j =>
        rw [hq] at h
        cases h
        simpa using ih hq

/-- What the parameters of a macro stand for in its own definition. -/
theorem bound_own (L : E.Lawful) (hO : AllNames E O) :
    Bound E O D S O (O.map fun p => [.other p]) (Spec.bindNodes O ((List.range O.length).map fun i => .expr 0 (.var (.arg i)))) := by
  refine ⟨hO, fun p N hp => ?_, fun p hp => ?_⟩
  · unfold Spec.bindNodes at hp
    cases hi : Spec.paramIndex O p with
    | none => rw [hi] at hp; cases hp
    | some i =>
      rw [hi] at hp
      have hlt := paramIndex_below hi
      have : N = .expr 0 (.var (.arg i)) := by
        simp [List.getElem?_range hlt] at hp
        exact hp.symm
      subst this
      have hat : O[i]? = some p := paramIndex_at hi
      refine ⟨i, [.other p], rfl, by simp [hat], [.arg i], ⟨?_, ?_, .param hi .nil⟩, .name .arg⟩
      · have hp := hO p (List.mem_of_getElem? hat)
        refine argText_brun (argText_one ?_ ?_)
        · rintro (rfl | rfl | rfl | rfl | rfl | rfl) <;> exact (notIdent_cToken L (CToken.punct (E := E) (by decide)) (by simp)).1 hp
        · rintro rfl
          exact (notIdent_cToken L (CToken.punct (E := E) (by decide)) (by simp)).1 hp
      · intro id hm
        simp at hm
  · unfold Spec.bindNodes at hp
    cases hi : Spec.paramIndex O p with
    | none => rfl
    | some i =>
      rw [hi] at hp
      have hlt := paramIndex_below hi
      simp [List.getElem?_range hlt] at hp

theorem lay_own (hO : AllNames E O) (ws : List Str) :
    lay E O (O.map fun p => [.other p]) ws = Spec.openBody (Spec.cName E) O ws := by
  induction ws with
  | nil => rfl
  | cons w ws ih =>
    rw [lay_cons, ih]
    simp only [lay, Spec.subst, Spec.openBody, List.map_cons, List.append_nil]
    cases hi : Spec.paramIndex O w with
    | none =>
      rw [if_neg (paramIndex_none.1 hi)]
      rfl
    | some i =>
      have := paramIndex_at hi
      rw [if_pos (List.mem_of_getElem? this)]
      simp [this]

theorem itemText_of {is : List Item} {ts : List MacroToken} (h : BodyText E [] is ts) : Spec.ItemText E is ts := by
  induction h with
  | nil => exact .nil
  | name _ ih => exact .name ih
  | param h _ ih => cases h
  | other _ _ h _ ih => exact .other h ih

end CMacro
