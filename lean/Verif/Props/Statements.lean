import Verif.Proofs.StmtParse
import Verif.Proofs.NoSemi
import Verif.Props.Grammar
import Verif.Props.Pipeline

/-!
# C60: statements are read with the structure of C

`Spec.GStmts` is the statement grammar of C, with trees.  A body that is a sequence of statements must be read as the trees
the grammar gives: each `else` with the nearest `if`, each branch with its own statements, each declaration as a declaration.
-/

namespace CMacro
open Parser Spec

/-- **C60**: a function-like macro whose body is a sequence of C statements, and not one expression, is read as the
statements of the grammar. -/
def C60_statement : Prop :=
  ∀ (E : Env), E.Lawful → ∀ (name : Str) (as : List MacroToken) (xs : List Str) (r : List MacroToken) (b : Bool) (ts : List MacroToken)
    (ss : List Stmt), isIdentifier E name = true → FnMacro.parseArgs as = some (xs, r) → GStmts true b ts ss → (¬∃ e, Gram 12 ts e) →
    FnMacro.parse E name as ts = .ok ⟨name, xs, .stmt (bodyTree ss)⟩

/-- Comments aside, the statement parser reads what the grammar derives. -/
theorem stmts_read (E : Env) {b : Bool} {ts : List MacroToken} {ss : List Stmt} (h : GStmts false b ts ss) :
    parseStmt E ts = some (bodyTree ss, []) := by
  have hm := many_reads E h (ts.length + 1) [] (delimited «meta» (parseSingle E (ts.length + 1)) «meta»)
    (eats_meta.delimited (eats_single E _) eats_meta).shrinks
    (fun i s r hi hr hp => by simp only [delimited, preceded, terminated, map, seq, meta_none hi, hr, meta_none hp])
    ⟨fun _ => rfl, .inl rfl⟩ (by simp only [delimited, preceded, terminated, map, seq, meta_none (by simp [PlainStart] : PlainStart []), single_nil]) (by omega)
  rw [List.append_nil] at hm
  simp only [parseStmt, map, hm]
  rcases ss with _ | ⟨s, _ | ⟨s', ss⟩⟩ <;> rfl

theorem stmts_body (E : Env) {b : Bool} {ts : List MacroToken} {ss : List Stmt} (h : GStmts false b ts ss)
    (hs : ts = [] ∨ .punct c!";" ∈ ts ∨ .punct c!"{" ∈ ts) : MacroBody.parse E ts = some (.stmt (bodyTree ss), []) := by
  have hm : «meta» ts = some ([], ts) := by
    have := plain_many h (rest := []) ⟨fun _ => rfl, .inl rfl⟩
    rw [List.append_nil] at this
    exact meta_none this
  unfold MacroBody.parse
  rw [hm]
  cases ts with
  | nil =>
    obtain rfl : ss = [] := by
      generalize hts : ([] : List MacroToken) = ts at h
      cases h with
      | nil => rfl
      | last h => obtain ⟨t, u, h, _⟩ := stmtStart h; rw [h] at hts; cases hts
      | cons h _ => obtain ⟨t, u, h, _⟩ := stmtStart h; rw [h] at hts; cases hts
    rfl
  | cons t ts =>
    have he : (allConsuming (map (parseExpr E) MacroBody.expr)) (t :: ts) = none := by
      simp only [allConsuming, map]
      cases hp : parseExpr E (t :: ts) with
      | none => rfl
      | some x =>
        obtain ⟨e, r⟩ := x
        cases r with
        | cons _ _ => rfl
        | nil =>
          obtain ⟨c, hc, hall⟩ := passes_expr E _ _ _ hp
          rw [List.append_nil] at hc
          subst hc
          rcases hs with hs | hs | hs
          · cases hs
          · exact absurd rfl (hall _ hs).1
          · exact absurd rfl (hall _ hs).2
    have hst : (allConsuming (map (parseStmt E) MacroBody.stmt)) (t :: ts) = some (.stmt (bodyTree ss), []) := by
      simp only [allConsuming, map, stmts_read E h]
    simp only [Parser.or, he, hst]

/-- **C60**, for bodies that contain a `;` or a `{`, and in which no `do … while ( … )` is followed by its semicolon.  Missing:
those semicolons, which the code never reads, and bodies such as `if ( x ) f ( )`, which may be taken for expressions. -/
theorem C60_partial (E : Env) (name : Str) (as : List MacroToken) (xs : List Str) (r : List MacroToken) (b : Bool) (ts : List MacroToken)
    (ss : List Stmt) (hn : isIdentifier E name = true) (ha : FnMacro.parseArgs as = some (xs, r)) (h : GStmts false b ts ss)
    (hs : ts = [] ∨ .punct c!";" ∈ ts ∨ .punct c!"{" ∈ ts) :
    FnMacro.parse E name as ts = .ok ⟨name, xs, .stmt (bodyTree ss)⟩ := by
  simp only [FnMacro.parse, hn, if_true, ha, stmts_body E h hs]

/-- The same for variable-like macros. -/
theorem C60_var_partial (E : Env) (name : Str) (b : Bool) (ts : List MacroToken) (ss : List Stmt) (hn : isIdentifier E name = true)
    (h : GStmts false b ts ss) (hs : ts = [] ∨ .punct c!";" ∈ ts ∨ .punct c!"{" ∈ ts) :
    VarMacro.parse E name ts = .ok ⟨name, .stmt (bodyTree ss)⟩ := by
  simp only [VarMacro.parse, hn, if_true, stmts_body E h hs]

/-! ## Examples -/

theorem gname {x : Str} (h : x ∉ cKeywords) : Gram 12 [.ident x] (.var (.plain x)) := (Gram.name (.ident h)).ups (by omega) (by omega)

theorem gassign {x y : Str} (hx : x ∉ cKeywords) (hy : y ∉ cKeywords) :
    Gram 12 [.ident x, .punct c!"=", .ident y] (.bin (.var (.plain x)) .assign (.var (.plain y))) :=
  .assign (p := c!"=") (by decide) ((Gram.name (.ident hx)).ups (n := 2) (by omega) (by omega)) (gname hy)

theorem sassign {D b : Bool} {x y : Str} (hx : x ∉ cKeywords) (hy : y ∉ cKeywords) (ha : x ∉ asmStarts) :
    GStmt D b false ([.ident x, .punct c!"=", .ident y] ++ semi b) (.expr (.bin (.var (.plain x)) .assign (.var (.plain y)))) :=
  .expr (gassign hx hy) ⟨by intro t n r _ e; simp at e, by rintro w hw r e; simp at e; exact ha (e.1 ▸ hw)⟩

/-- `if ( a ) if ( b ) p = q ; else q = p ;`: the `else` belongs to the second `if`. -/
example (E : Env) : MacroBody.parse E [.ident c!"if", .punct c!"(", .ident c!"a", .punct c!")", .ident c!"if", .punct c!"(", .ident c!"b", .punct c!")",
      .ident c!"p", .punct c!"=", .ident c!"q", .punct c!";", .ident c!"else", .ident c!"q", .punct c!"=", .ident c!"p", .punct c!";"] =
    some (.stmt (.ite (.var (.plain c!"a"))
      [.ite (.var (.plain c!"b")) [.expr (.bin (.var (.plain c!"p")) .assign (.var (.plain c!"q")))]
        [.expr (.bin (.var (.plain c!"q")) .assign (.var (.plain c!"p")))]] []), []) :=
  stmts_body E (.last (b := true) (.ite (cs := [.ident c!"a"]) (gname (by decide)) (.iteElse (cs := [.ident c!"b"])
    (ts := [.ident c!"p", .punct c!"=", .ident c!"q", .punct c!";"]) (gname (by decide))
    (sassign (b := true) (by decide) (by decide) (by decide)) (sassign (b := true) (by decide) (by decide) (by decide))))) (.inr (.inl (by decide)))

/-- `do { static int * t = a ; a = b ; b = t ; } while ( c )`. -/
example (E : Env) : MacroBody.parse E [.ident c!"do", .punct c!"{", .ident c!"static", .ident c!"int", .punct c!"*", .ident c!"t", .punct c!"=",
      .ident c!"a", .punct c!";", .ident c!"a", .punct c!"=", .ident c!"b", .punct c!";", .ident c!"b", .punct c!"=", .ident c!"t", .punct c!";",
      .punct c!"}", .ident c!"while", .punct c!"(", .ident c!"c", .punct c!")"] =
    some (.stmt (.doWhile [.varDecl ⟨.ptr (.builtIn .int), .plain c!"t", .var (.plain c!"a"), true⟩,
      .expr (.bin (.var (.plain c!"a")) .assign (.var (.plain c!"b"))),
      .expr (.bin (.var (.plain c!"b")) .assign (.var (.plain c!"t")))] (.var (.plain c!"c"))), []) :=
  stmts_body E (.last (b := false) (.doWhile (cs := [.ident c!"c"]) (.block (b := true)
    (.cons (.decl (b := true) (s := true) (us := [.ident c!"int", .punct c!"*"]) (.ptr (.builtIn (.int (ws := [c!"int"]) ⟨_, by decide, .refl _⟩ (by decide) (by decide))))
        (.ident (by decide)) (gname (by decide)))
      (.cons (sassign (b := true) (by decide) (by decide) (by decide)) (.last (sassign (b := true) (by decide) (by decide) (by decide))))))
    (gname (by decide)) (by decide))) (.inr (.inl (by decide)))

/-! ## The full claim is false -/

theorem do_semi (D : Bool) (h : D = true) : GStmts D true
    [.ident c!"do", .punct c!"{", .ident c!"p", .punct c!"=", .ident c!"q", .punct c!";", .punct c!"}", .ident c!"while", .punct c!"(",
      .ident c!"c", .punct c!")", .punct c!";"]
    [.doWhile [.expr (.bin (.var (.plain c!"p")) .assign (.var (.plain c!"q")))] (.var (.plain c!"c"))] :=
  .last (.doWhile (b := true) (cs := [.ident c!"c"]) (.block (b := true) (.last (sassign (b := true) (by decide) (by decide) (by decide))))
    (gname (by decide)) (fun _ => h))

/-- The full claim is false: with its own semicolon, `do { p = q ; } while ( c ) ;` is not a body. -/
theorem C60_false : ¬ C60_statement := by
  intro h
  have h1 := h asciiEnv asciiEnv_lawful c!"M" [] [] [] true _ _ (by decide +kernel) (by decide +kernel) (do_semi true rfl) ?_
  · have h2 : FnMacro.parse asciiEnv c!"M" [] [.ident c!"do", .punct c!"{", .ident c!"p", .punct c!"=", .ident c!"q", .punct c!";", .punct c!"}",
        .ident c!"while", .punct c!"(", .ident c!"c", .punct c!")", .punct c!";"] = .error .invalidMacroBody := rfl
    rw [h2] at h1
    cases h1
  · rintro ⟨e, he⟩
    have := C35_grammar asciiEnv he
    have h2 : parseExpr asciiEnv [.ident c!"do", .punct c!"{", .ident c!"p", .punct c!"=", .ident c!"q", .punct c!";", .punct c!"}",
        .ident c!"while", .punct c!"(", .ident c!"c", .punct c!")", .punct c!";"] ≠ some (e, []) := by
      obtain ⟨x, hx⟩ : ∃ x, parseExpr asciiEnv [.ident c!"do", .punct c!"{", .ident c!"p", .punct c!"=", .ident c!"q", .punct c!";", .punct c!"}",
        .ident c!"while", .punct c!"(", .ident c!"c", .punct c!")", .punct c!";"] = some (x, [.punct c!"{", .ident c!"p", .punct c!"=", .ident c!"q", .punct c!";", .punct c!"}",
        .ident c!"while", .punct c!"(", .ident c!"c", .punct c!")", .punct c!";"]) := ⟨.var (.plain c!"do"), by decide +kernel⟩
      rw [hx]
      simp
    exact h2 this

/-- Nor is a body with such a statement in a block. -/
theorem C60_false_nested : FnMacro.parse asciiEnv c!"M" [] [.punct c!"{", .ident c!"do", .ident c!"f", .punct c!"(", .punct c!")", .punct c!";",
    .ident c!"while", .punct c!"(", .ident c!"c", .punct c!")", .punct c!";", .ident c!"g", .punct c!"(", .punct c!")", .punct c!";", .punct c!"}"] =
    .error .invalidMacroBody := rfl

/-- `if ( x ) - p`, the last semicolon left to the user of the macro, is a subtraction from the result of a function `if`. -/
theorem C60_false_if : (∃ s, GStmts true false
    [.ident c!"if", .punct c!"(", .ident c!"x", .punct c!")", .punct c!"-", .ident c!"p"] [.ite (.var (.plain c!"x")) [s] []]) ∧
    MacroBody.parse asciiEnv [.ident c!"if", .punct c!"(", .ident c!"x", .punct c!")", .punct c!"-", .ident c!"p"] =
      some (.expr (.bin (.call (.plain c!"if") [.var (.plain c!"x")]) .sub (.var (.plain c!"p"))), []) := by
  refine ⟨⟨.expr (.un .minus (.var (.plain c!"p"))), ?_⟩, rfl⟩
  exact .last (.ite (b := false) (cs := [.ident c!"x"]) (gname (by decide))
    (.expr (b := false) (ts := [.punct c!"-", .ident c!"p"])
      ((Gram.pre (by decide) ((Gram.name (.ident (by decide))).ups (n := 2) (by omega) (by omega))).ups (by omega) (by omega))
      ⟨fun t n r hn e => (by cases e), fun w hw r e => (by cases e)⟩))

end CMacro
