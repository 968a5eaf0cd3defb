import Verif.Proofs.Stringify
import Verif.Props.Calls

/-!
# Property C18: stringification
-/

namespace CMacro
open Spec (Op Def Table Item BlockComment)

/-- A piece of stringified text: a character, or a parameter of the enclosing macro. -/
abbrev Piece := Char ⊕ Nat

/-- The pieces of text, blanks dropped, where the parameter `y` stands for itself. -/
def Spec.pieces (y : Str) (text : List Str) : List Piece :=
  text.flatMap fun s => if s = y then [.inr 0] else (Spec.squeeze s).map .inl

/-- The pieces a returned token list denotes: string literals and stringified parameters. -/
def Spec.resultPieces : List MacroToken → Option (List Piece)
  | [] => some []
  | .punct p :: .arg i :: ts =>
    if p = c!"#" then (resultPieces ts).map (.inr i :: ·) else none
  | .lit (.string (.ordinary bs)) :: ts =>
    match utf8Dec bs with
    | some s => (resultPieces ts).map ((Spec.squeeze s).map .inl ++ ·)
    | none => none
  | _ => none

/-- **C18**, the full statement.  With `#define S(x) # x`:
* `S ( p )` gives one string literal that spells the argument `p`, comments and blanks aside;
* with `#define G(y) S ( p )`, where `p` may mention `y`, the result of `expand_fn_macro` for `G`
  spells the pieces of `p` in their order. -/
def C18_statement : Prop :=
  ∀ (E : Env), E.Lawful → ∀ (h : List Op) (S x : Str), Table.run h S = some (.fn [x] [c!"#", x]) →
    nameOf E S = some S → nameOf E x = some x →
  ∀ (p : List Str), (∀ s ∈ p, Spelled s) → Spec.ArgText (p.map (Spec.item (nameOf E))) →
    (∀ k toks, PlainInput ([S, c!"("] ++ p ++ [c!")"]) →
      (MacroSet.run h).expand E k ([S, c!"("] ++ p ++ [c!")"]) = .ok toks →
      ∃ text, toks = [.lit (.string (.ordinary (utf8EncStr text)))] ∧
        Spec.squeeze text = Spec.squeeze (Spec.withoutComments p).flatten) ∧
    (∀ G y k as toks, Table.run h G = some (.fn [y] ([S, c!"("] ++ p ++ [c!")"])) →
      (∀ s ∈ p, nameOf E s = some s ∨ ∃ n, classify E s = some (.lit (.int n))) →
      (MacroSet.run h).expandFn E k G = .ok (as, toks) →
      Spec.resultPieces toks = some (Spec.pieces y p))

/-- `#define S(x) # x` and `#define G(y) S(1 y)`. -/
def strHistory : List Op :=
  [.defineFn c!"S" [c!"x"] [c!"#", c!"x"],
   .defineFn c!"G" [c!"y"] [c!"S", c!"(", c!"1", c!"y", c!")"]]

/-- **C18** is false of the code: `G` becomes `# y "1"`; the pieces changed places. -/
theorem C18_false : ¬ C18_statement := by
  intro hs
  have := (hs asciiEnv asciiEnv_lawful strHistory c!"S" c!"x" (by decide) (by decide +kernel)
    (by decide +kernel) [c!"1", c!"y"] (by decide) (argText_iff.2 (by decide +kernel))).2 c!"G" c!"y"
    5 [.ident c!"y"] [.punct c!"#", .arg 0, .lit (.string (.ordinary [49]))] (by decide) (by
      intro s hs
      simp only [List.mem_cons, List.not_mem_nil, or_false] at hs
      rcases hs with rfl | rfl
      · exact .inr ⟨⟨1, none⟩, by decide +kernel⟩
      · exact .inl (by decide +kernel)) (by decide +kernel)
  revert this
  decide +kernel

/-- **C18**, what holds: the first half.  `S ( p )` always returns one string literal, whose
characters are those of the argument's tokens in order, comments and blanks aside. -/
theorem C18_spells_argument_partial (E : Env) (L : E.Lawful) (h : List Op) (S x : Str)
    (hS : Table.run h S = some (.fn [x] [c!"#", x])) (hS' : nameOf E S = some S)
    (hx : nameOf E x = some x) (p : List Str) (hp : ∀ s ∈ p, Spelled s)
    (ha : Spec.ArgText (p.map (Spec.item (nameOf E))))
    (hin : PlainInput ([S, c!"("] ++ p ++ [c!")"])) :
    ∃ text, Spec.squeeze text = Spec.squeeze (Spec.withoutComments p).flatten ∧
      Returns (fun k => (MacroSet.run h).expand E k ([S, c!"("] ++ p ++ [c!")"]))
        (.ok [.lit (.string (.ordinary (utf8EncStr text)))]) := by
  obtain ⟨text, src, h1, h2⟩ := stringify_text L (E := E) (p := p) (fun s hs => by
    have hm : s ∈ [S, c!"("] ++ p ++ [c!")"] := by simp [hs]
    have := hin.1 s hm
    exact ⟨hp s hs, fun he => hin.2 (he ▸ hm), this.2.2.1, this.2.2.2⟩)
  refine ⟨text, h2, by simp, 2, ?_⟩
  have hnb : ∀ {z : Str}, Spec.IsBracket z → nameOf E z = none := by
    intro z hz
    cases hn : nameOf E z with
    | none => rfl
    | some id =>
      have := nameOf_fromStr hn
      rw [tok_bracket L hz] at this; simp at this
  have h1' : nameOf E c!"(" = none := hnb (by simp [Spec.IsBracket])
  have h2' : nameOf E c!")" = none := hnb (by simp [Spec.IsBracket])
  have hitems : ([S, c!"("] ++ p ++ [c!")"]).map (Spec.item (nameOf E)) =
      .name S false :: (.other c!"(" :: Spec.commaJoin [p.map (Spec.item (nameOf E))] ++
        .other c!")" :: []) := by
    simp [Spec.commaJoin, Spec.item, hS', h1', h2']
  have hm : (p.map (Spec.item (nameOf E))).map (tokOf E) = p.map (Token.fromStr E) := by
    rw [List.map_map]
    exact List.map_congr_left (fun s _ => tokOf_item (ps := .none) s)
  have hhash : Token.fromStr E c!"#" = .punct c!"#" := by
    have hs : isIdentStart E '#' = false := by
      rw [isIdentStart, L.startAscii '#' (by decide)]
      decide
    have hc : E.xidContinue '#' = false := by rw [L.contAscii _ (by decide)]; decide
    have h1 : identTryFrom E c!"#" = none := by
      cases hi : identTryFrom E c!"#" with
      | none => rfl
      | some id =>
        have := ((identTryFrom_noEscape E (by decide) id).1 hi).2
        simp only [Spec.IsIdent] at this
        simp only [isIdentStart, Bool.or_eq_false_iff] at hs
        rcases this.1 with h | h
        · rw [hs.1] at h; simp at h
        · exact absurd h (by decide)
    have h2 : identContTryFrom E c!"#" = none := by
      cases hi : identContTryFrom E c!"#" with
      | none => rfl
      | some id =>
        have := (contNoEscape (by decide) hi).2.2 '#' (by decide)
        rw [hc] at this; simp at this
    unfold Token.fromStr
    rw [if_neg (by decide), h1, h2]
    decide +kernel
  have hxh : x ≠ c!"#" := by
    rintro rfl
    have := nameOf_fromStr hx
    rw [hhash] at this
    simp at this
  have htk : tokenize E ([x].map Token.ident) [c!"#", x] = [.punct c!"#", .macroArg 0] := by
    have := fun s => tokenizeOne_params (E := E) [x] s [] (.inl rfl)
    simp only [List.append_nil] at this
    simp only [tokenize, List.map_cons, List.map_nil] at this ⊢
    simp only [this, Spec.paramIndex]
    simp [hxh, hhash]
  have hargs : expandArguments E (expandMacroBody E (MacroSet.run h) 1 [[]]) false [.ident x]
      [p.map (Token.fromStr E)] [] [.punct c!"#", .macroArg 0] =
      .ok (stringify E false (p.map (Token.fromStr E))) := by
    simp [expandArguments, Token.isArg, selectArg, placeArg]
  show (MacroSet.run h).expand E (1 + 1) _ = _
  rw [expand_call_alone L (agrees_run h) hS (by simp) (by simp [hx]) (by
      simp only [List.mem_cons, List.not_mem_nil, or_false, not_or]
      refine ⟨by decide, ?_⟩
      rintro rfl; simp [nameOf] at hx) hin hitems ⟨by simp, by simpa using ha, rfl⟩ (.inl rfl) 1]
  rw [htk]
  simp only [List.map_cons, List.map_nil, hm]
  rw [hargs, h1]
  have hcat : expandConcat E [Token.lit (.string (.ordinary (utf8EncStr text))) src] =
      .ok [.lit (.string (.ordinary (utf8EncStr text))) src] := by
    exact expandConcat_noop (by simp)
  simp [hcat, removePlacemarkers, expandMacroBody, scan, Scan.push, detokenize, Token.detokenize]
  rfl

/-- `S ( "a\n" [ f ( x , /* c */ y ) ] )`. -/
example : ∃ text, Spec.squeeze text = c!"\"a\\n\"[f(x,y)]" ∧
    Returns (fun k => (MacroSet.run strHistory).expand asciiEnv k
      [c!"S", c!"(", c!"\"a\\n\"", c!"[", c!"f", c!"(", c!"x", c!",", c!"/* c */", c!"y", c!")",
        c!"]", c!")"])
      (.ok [.lit (.string (.ordinary (utf8EncStr text)))]) :=
  C18_spells_argument_partial asciiEnv asciiEnv_lawful strHistory c!"S" c!"x" (by decide)
    (by decide +kernel) (by decide +kernel)
    [c!"\"a\\n\"", c!"[", c!"f", c!"(", c!"x", c!",", c!"/* c */", c!"y", c!")", c!"]"]
    (by decide) (argText_iff.2 (by decide +kernel)) (by decide +kernel)

end CMacro
