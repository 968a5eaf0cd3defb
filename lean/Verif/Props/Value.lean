import Verif.Props.CText
import Verif.Props.Calls
import Verif.Props.Grammar
import Verif.Props.Fold

/-!
# Property C59: from the definitions to the value of a constant

Expansion (C08, C14), lexing (C11, C24), parsing (C35) and constant folding (C26) put together: the only
things that count are the textbook rules of C.
-/

namespace CMacro
open Spec (Op Def Table Item Expands ExpandsAll IsIdent CText Gram Value)

/-- The names of C: an identifier denotes itself. -/
noncomputable def Spec.cName (E : Env) (s : Str) : Option Str :=
  open Classical in if s ≠ c!"__VA_ARGS__" ∧ IsIdent E.xidStart E.xidContinue s then some s else none

/-- The body of a definition. -/
def Spec.Def.body : Def → List Str
  | .var b => b
  | .fn _ b => b

/-- A character constant or a string, with a prefix or without, or a spelling without backslashes. -/
def Spec.NoNameEscape (s : Str) : Prop :=
  '\\' ∉ s ∨ ∃ (p : Spec.Prefix) (q : Char) (r : Str), (q = '\'' ∨ q = '"') ∧ s = p.text ++ q :: r

/-- The bodies are written without backslashes, except in character constants and strings. -/
def Spec.NoBackslash (D : Table) : Prop := ∀ id d, D id = some d → ∀ s ∈ d.body, Spec.NoNameEscape s

theorem noBackslash_of {D : Table} (h : ∀ id d, D id = some d → ∀ s ∈ d.body, '\\' ∉ s) : Spec.NoBackslash D :=
  fun id d hd s hs => .inl (h id d hd s hs)

/-- The text of an expansion in which no name is left. -/
def Spec.others : List Str → List Item := List.map .other

theorem subst_congr {f g : Str → Option Str} {params : List Str} {args : List (List Item)} {va : Option (List Item)} :
    ∀ {body : List Str}, (∀ s ∈ body, f s = g s) → Spec.subst f params args va body = Spec.subst g params args va body
  | [], _ => rfl
  | s :: body, h => by
    have hs : Spec.item f s = Spec.item g s := by simp only [Spec.item, h s List.mem_cons_self]
    simp only [Spec.subst, hs, subst_congr (body := body) fun t ht => h t (List.mem_cons_of_mem _ ht)]

theorem expands_congr {f g : Str → Option Str} {D : Table}
    (hD : ∀ id d, D id = some d → ∀ s ∈ d.body, f s = g s)
    {H : List Str} {ts out : List Item} (h : Expands f D H ts out) : Expands g D H ts out := by
  refine Expands.rec (motive_1 := fun H ts out _ => Expands g D H ts out)
    (motive_2 := fun H as as' _ => ExpandsAll g D H as as')
    ?nil ?other ?painted ?hidden ?undefined ?object ?call ?callV ?anil ?acons h
  case nil => exact .nil
  case other => exact fun _ ih => .other ih
  case painted => exact fun _ ih => .painted ih
  case hidden => exact fun h _ ih => .hidden h ih
  case undefined => exact fun h h' _ ih => .undefined h h' ih
  case object =>
    intro H id body b ts out hH hd _ _ ihb ih
    refine .object hH hd ?_ ih
    have : body.map (Spec.item f) = body.map (Spec.item g) :=
      List.map_congr_left fun s hs => by simp only [Spec.item, hD id _ hd s hs]
    rwa [← this]
  case call =>
    intro H id params body args args' b ts rest out hH hd hell hc har _ _ _ iha ihb ih
    refine .call hH hd hell hc har iha ?_ ih
    rwa [← subst_congr (f := f) (body := body) fun s hs => hD id _ hd s hs]
  case callV =>
    intro H id params body args args' va b ts rest out hH hd hell hc hle _ _ _ _ iha ihva ihb ih
    refine .callVariadic hH hd hell hc hle iha ihva ?_ ih
    rwa [← subst_congr (f := f) (body := body) fun s hs => hD id _ hd s hs]
  case anil => exact .nil
  case acons => exact fun _ _ ih ih' => .cons ih ih'

theorem cName_eq (E : Env) {s : Str} (hb : '\\' ∉ s) : Spec.cName E s = nameOf E s := by
  unfold Spec.cName nameOf
  by_cases hv : s = c!"__VA_ARGS__"
  · simp [hv]
  · rw [if_neg hv]
    by_cases hi : IsIdent E.xidStart E.xidContinue s
    · rw [if_pos ⟨hv, hi⟩, (C23_identifiers_exact E s s hb).2 ⟨rfl, hi⟩]
    · rw [if_neg fun h => hi h.2]
      cases h : identTryFrom E s with
      | none => rfl
      | some id => exact absurd ((C23_identifiers_exact E s id hb).1 h).2 hi

theorem cName_is {E : Env} (L : E.Lawful) {s : Str} (h : Spec.NoNameEscape s) : Spec.cName E s = nameOf E s := by
  rcases h with hb | ⟨p, q, r, hq, rfl⟩
  · exact cName_eq E hb
  · have hn := quoted_noName L p hq r
    have hv : p.text ++ q :: r ≠ c!"__VA_ARGS__" := by
      rcases hq with rfl | rfl <;> cases p <;> simp [Spec.Prefix.text]
    unfold Spec.cName nameOf
    rw [if_neg hv, hn, if_neg]
    rintro ⟨_, hi⟩
    have hm := isIdent_cont L hi q (by simp)
    rcases hq with rfl | rfl
    · rw [L.contAscii _ (by decide)] at hm; revert hm; decide
    · rw [L.contAscii _ (by decide)] at hm; revert hm; decide

theorem results_cText {E : Env} (L : E.Lawful) {ss : List Str} {ts : List MacroToken} (h : CText E ss ts) :
    results E (Spec.others ss) = some ts := by
  induction h with
  | nil => rfl
  | cons h _ ih =>
    simp only [Spec.others, List.map_cons, results, itemResult, (classify_cToken L h).1] at ih ⊢
    rw [ih]

theorem plain_cName {E : Env} (L : E.Lawful) {D : Table} (hP : Spec.Plain (Spec.cName E) D) :
    Spec.Plain (nameOf E) D where
  var := hP.var
  fn := by
    intro id params body hd
    obtain ⟨h1, h2, named, h3, h4, h5⟩ := hP.fn id params body hd
    refine ⟨h1, h2, named, h3, h4, fun p hp => ⟨?_, (h5 p hp).2⟩⟩
    have := (h5 p hp).1
    rw [← cName_eq E ?_]
    · exact this
    · unfold Spec.cName at this
      split at this
      · rename_i hi
        exact noEscape_ident L hi.2
      · cases this

/-- Expansion, parsing and generation of a variable-like macro, one after the other. -/
def MakesConst (C : Ctx) (h : List Op) (name : Str) (value : List RTok) (ty : Option (List RTok)) : Prop :=
  ∃ N, ∀ n ≥ N, pipeVar n C h name = .gen (.ok (value, ty))

/-- **C59**: let `name` be defined as a variable-like macro; let the textbook rules expand its body to the
spellings `ss`; let these be the tokens `ts` of C; let the grammar of C read them as the expression `e`, and
let the value of `e` be `v`.  Then expanding, parsing and generating give the constant `v`. -/
theorem C59_constant_has_c_value (C : Ctx) (L : C.env.Lawful) (h : List Op) (name : Str) (body : List Str)
    (hn : IsIdent C.env.xidStart C.env.xidContinue name)
    (hP : Spec.Plain (Spec.cName C.env) (Table.run h)) (hB : Spec.NoBackslash (Table.run h))
    (hdef : Table.run h name = some (.var body)) (ss : List Str)
    (hx : Expands (Spec.cName C.env) (Table.run h) [name] (body.map (Spec.item (Spec.cName C.env))) (Spec.others ss))
    (ts : List MacroToken) (ht : CText C.env ss ts) (e : Expr) (hg : Gram 12 ts e) (v : Int) (hv : Value e v) :
    MakesConst C h name [.int v []] none := by
  have hP' := plain_cName L hP
  have hx' := expands_congr (g := nameOf C.env) (fun id d hd s hs => cName_is L (hB id d hd s hs)) hx
  rw [show body.map (Spec.item (Spec.cName C.env)) = body.map (Spec.item (nameOf C.env)) from
    List.map_congr_left fun s hs => by simp only [Spec.item, cName_is L (hB name _ hdef s hs)]] at hx'
  obtain ⟨_, n₁, h1⟩ := expandVar_of_expands L (agrees_run h) hP' hdef hx' (results_cText L ht)
  obtain ⟨n₂, h2⟩ := C26_folding_exact C name e v hv
  refine ⟨max n₁ n₂, fun n hn' => ?_⟩
  have h3 : (MacroSet.run h).expandVar C.env n name = .ok ts := by
    have h1' : (MacroSet.run h).expandVar C.env n₁ name = .ok ts := h1
    rw [← h1']
    exact (expandVar_le C.env _ (show n₁ ≤ n by omega) name).eq (by rw [h1']; simp)
  have hi : isIdentifier C.env name = true := isIdent_iff.2 hn
  simp only [pipeVar, h3, C35_var_grammar C.env hi hg, h2 n (by omega)]

/-- `#define SQ(x) ((x) * (x))`, `#define A 2 + 1`, `#define M SQ(A) - A * 3`. -/
def valueHistory : List Op :=
  [.defineFn c!"SQ" [c!"x"] [c!"(", c!"(", c!"x", c!")", c!"*", c!"(", c!"x", c!")", c!")"],
   .defineVar c!"A" [c!"2", c!"+", c!"1"],
   .defineVar c!"M" [c!"SQ", c!"(", c!"A", c!")", c!"-", c!"A", c!"*", c!"3"]]

theorem valueHistory_noBackslash : Spec.NoBackslash (Table.run valueHistory) := by
  refine noBackslash_of ?_
  intro id d hd
  rcases run_mem hd with ⟨b, rfl, h⟩ | ⟨p, b, rfl, h⟩ <;> simp [valueHistory] at h
  · rcases h with ⟨rfl, rfl⟩ | ⟨rfl, rfl⟩ <;> decide
  · obtain ⟨rfl, rfl, rfl⟩ := h
    decide

theorem valueHistory_plain : Spec.Plain (Spec.cName asciiEnv) (Table.run valueHistory) := by
  have h := plain_of_check (E := asciiEnv) (h := valueHistory) (by decide +kernel)
  refine ⟨h.var, fun id params body hd => ?_⟩
  obtain ⟨h1, h2, named, h3, h4, h5⟩ := h.fn id params body hd
  refine ⟨h1, h2, named, h3, h4, fun p hp => ⟨?_, (h5 p hp).2⟩⟩
  rw [cName_eq]
  · exact (h5 p hp).1
  · have hp' : p ∈ params := by rcases h3 with rfl | rfl <;> simp [hp]
    rcases run_mem hd with ⟨b, h, _⟩ | ⟨_, b, h, hm⟩
    · cases h
    · cases h
      simp [valueHistory] at hm
      obtain ⟨rfl, rfl, rfl⟩ := hm
      simp only [List.mem_singleton] at hp'
      subst hp'
      decide

theorem valueHistory_expands :
    Expands (Spec.cName asciiEnv) (Table.run valueHistory) [c!"M"]
      ([c!"SQ", c!"(", c!"A", c!")", c!"-", c!"A", c!"*", c!"3"].map (Spec.item (Spec.cName asciiEnv)))
      (Spec.others [c!"(", c!"(", c!"2", c!"+", c!"1", c!")", c!"*", c!"(", c!"2", c!"+", c!"1", c!")", c!")", c!"-",
        c!"2", c!"+", c!"1", c!"*", c!"3"]) := by
  refine expands_congr (f := nameOf asciiEnv)
    (fun id d hd s hs => (cName_is asciiEnv_lawful (valueHistory_noBackslash id d hd s hs)).symm) ?_
  rw [show [c!"SQ", c!"(", c!"A", c!")", c!"-", c!"A", c!"*", c!"3"].map (Spec.item (Spec.cName asciiEnv)) =
    [c!"SQ", c!"(", c!"A", c!")", c!"-", c!"A", c!"*", c!"3"].map (Spec.item (nameOf asciiEnv)) from
    List.map_congr_left fun s hs => by
      simp only [Spec.item, cName_is asciiEnv_lawful (valueHistory_noBackslash c!"M" _ rfl s hs)]]
  rw [show [c!"SQ", c!"(", c!"A", c!")", c!"-", c!"A", c!"*", c!"3"].map (Spec.item (nameOf asciiEnv)) =
    [.name c!"SQ" false, .other c!"(", .name c!"A" false, .other c!")", .other c!"-", .name c!"A" false, .other c!"*",
      .other c!"3"] from by decide +kernel]
  have hA : ∀ H ts out, c!"A" ∉ H → Expands (nameOf asciiEnv) (Table.run valueHistory) H ts out →
      Expands (nameOf asciiEnv) (Table.run valueHistory) H (.name c!"A" false :: ts)
        (.other c!"2" :: .other c!"+" :: .other c!"1" :: out) := by
    intro H ts out hH h
    refine .object (b := [.other c!"2", .other c!"+", .other c!"1"]) hH rfl ?_ h
    rw [show [c!"2", c!"+", c!"1"].map (Spec.item (nameOf asciiEnv)) =
      [.other c!"2", .other c!"+", .other c!"1"] from by decide +kernel]
    exact .other (.other (.other .nil))
  refine .call (b := Spec.others [c!"(", c!"(", c!"2", c!"+", c!"1", c!")", c!"*", c!"(", c!"2", c!"+", c!"1", c!")", c!")"])
    (args := [[.name c!"A" false]]) (args' := [[.other c!"2", .other c!"+", .other c!"1"]]) (params := [c!"x"])
    (by decide) rfl (by decide)
    ⟨by simp, fun a ha => by simp only [List.mem_singleton] at ha; subst ha; exact .name .nil, rfl⟩ (.inl rfl)
    (.cons (hA _ _ _ (by decide) .nil) .nil) ?_ (.other (hA _ _ _ (by decide) (.other (.other .nil))))
  rw [show Spec.subst (nameOf asciiEnv) [c!"x"] [[.other c!"2", .other c!"+", .other c!"1"]] none
      [c!"(", c!"(", c!"x", c!")", c!"*", c!"(", c!"x", c!")", c!")"] =
    Spec.others [c!"(", c!"(", c!"2", c!"+", c!"1", c!")", c!"*", c!"(", c!"2", c!"+", c!"1", c!")", c!")"] from
    by decide +kernel]
  simp only [Spec.others, List.map]
  repeat' constructor

/-- The text of `M` is `((2 + 1) * (2 + 1)) - 2 + 1 * 3`, so its value is 10 (and not 0). -/
example : MakesConst (Ctx.unit asciiEnv) valueHistory c!"M" [.int 10 []] none := by
  have two : Spec.CToken asciiEnv c!"2" (.lit (.int ⟨2, none⟩)) :=
    .int (s := c!"2") (t := []) (v := 2) (Spec.IntConst.dec (ds := [2]) (s := c!"2") (.cons ⟨by decide, .inl (by decide)⟩ .nil) (by decide) (by decide)) (by decide) (by decide)
  have one : Spec.CToken asciiEnv c!"1" (.lit (.int ⟨1, none⟩)) :=
    .int (s := c!"1") (t := []) (v := 1) (Spec.IntConst.dec (ds := [1]) (s := c!"1") (.cons ⟨by decide, .inl (by decide)⟩ .nil) (by decide) (by decide)) (by decide) (by decide)
  have three : Spec.CToken asciiEnv c!"3" (.lit (.int ⟨3, none⟩)) :=
    .int (s := c!"3") (t := []) (v := 3) (Spec.IntConst.dec (ds := [3]) (s := c!"3") (.cons ⟨by decide, .inl (by decide)⟩ .nil) (by decide) (by decide)) (by decide) (by decide)
  have p : ∀ s ∈ Spec.punctuators, Spec.CToken asciiEnv s (.punct s) := fun s hs => .punct hs
  have up : ∀ {ℓ ts e}, Gram ℓ ts e → ∀ k, ℓ + k ≤ 12 → Gram (ℓ + k) ts e := by
    intro ℓ ts e h k
    induction k with
    | zero => exact fun _ => h
    | succ k ih => exact fun hk => .up (ℓ := ℓ + k) (ih (by omega)) (by omega)
  have sum : Gram 4 [.lit (.int ⟨2, none⟩), .punct c!"+", .lit (.int ⟨1, none⟩)]
      (.bin (.lit (.int ⟨2, none⟩)) .add (.lit (.int ⟨1, none⟩))) :=
    .bin (ℓ := 3) (ts := [_]) (by decide) (up .lit 4 (by decide)) (up .lit 3 (by decide))
  have grp := Gram.paren (up sum 8 (by decide)) (by simp)
  have prod := Gram.bin (ℓ := 2) (p := c!"*") (op := .mul) (by decide) (up grp 3 (by decide)) (up grp 2 (by decide))
  have fst := Gram.paren (up prod 9 (by decide)) (by simp)
  have e1 := Gram.bin (ℓ := 3) (p := c!"-") (op := .sub) (by decide) (up fst 4 (by decide)) (up (.lit (l := .int ⟨2, none⟩)) 3 (by decide))
  have e2 := Gram.bin (ℓ := 2) (p := c!"*") (op := .mul) (by decide) (up (.lit (l := .int ⟨1, none⟩)) 3 (by decide))
    (up (.lit (l := .int ⟨3, none⟩)) 2 (by decide))
  have e3 := Gram.bin (ℓ := 3) (p := c!"+") (op := .add) (by decide) e1 e2
  have s1 : Value (.bin (.lit (.int ⟨2, none⟩)) .add (.lit (.int ⟨1, none⟩))) (2 + 1) :=
    .bin (.lit (n := ⟨2, none⟩)) (.lit (n := ⟨1, none⟩)) .add (by unfold Spec.I128; decide)
  refine C59_constant_has_c_value (Ctx.unit asciiEnv) asciiEnv_lawful valueHistory c!"M" _
    (by simp only [IsIdent]; decide) valueHistory_plain valueHistory_noBackslash rfl _ valueHistory_expands _ ?_ _
    (up e3 8 (by decide)) _
    (.bin (.bin (.bin s1 s1 .mul (by unfold Spec.I128; decide)) (.lit (n := ⟨2, none⟩)) .sub (by unfold Spec.I128; decide))
      (.bin (.lit (n := ⟨1, none⟩)) (.lit (n := ⟨3, none⟩)) .mul (by unfold Spec.I128; decide)) .add (by unfold Spec.I128; decide))
  exact .cons (p _ (by decide)) <| .cons (p _ (by decide)) <| .cons two <| .cons (p _ (by decide)) <| .cons one <|
    .cons (p _ (by decide)) <| .cons (p _ (by decide)) <| .cons (p _ (by decide)) <| .cons two <|
    .cons (p _ (by decide)) <| .cons one <| .cons (p _ (by decide)) <| .cons (p _ (by decide)) <|
    .cons (p _ (by decide)) <| .cons two <| .cons (p _ (by decide)) <| .cons one <| .cons (p _ (by decide)) <|
    .cons three .nil

end CMacro
