import Verif.Proofs.Occurs

/-!
# Code generation neither loses nor repeats names
-/

namespace CMacro
open Spec

section
variable {w : Str} {ps : List Str}

theorem match_plain : ∀ {xs : List (RegConstraint × Expr)} {outs : List (Dir × RegConstraint × Expr)} {ins : List (RegConstraint × Expr)},
    (∀ o ∈ xs, plainConstraint o.1) → matchConstraints xs outs ins = some (outs, ins)
  | [], _, _, _ => rfl
  | (c, e) :: xs, outs, ins, h => by
    have h1 : plainConstraint c := h (c, e) (by simp)
    have h2 := match_plain (outs := outs) (ins := ins) fun o ho => h o (List.mem_cons_of_mem _ ho)
    cases c with
    | digit n => exact absurd h1 id
    | _ => rw [matchConstraints]; exact h2; all_goals simp

theorem lc_flatMap {α : Type} (f : α → List Leaf) : ∀ xs : List α, leafCount w ps (xs.flatMap f) = (xs.map fun x => leafCount w ps (f x)).sum
  | [] => rfl
  | x :: xs => by rw [List.flatMap_cons, lc_append, lc_flatMap f xs, List.map_cons, List.sum_cons]

theorem wc_comma : ∀ xs : List (List RTok), wordCount w (commaToks xs) = (xs.map (wordCount w)).sum
  | [] => rfl
  | x :: xs => by
    have := wc_comma xs
    unfold commaToks at this ⊢
    rw [List.flatMap_cons, wc_append, this, List.map_cons, List.sum_cons, wc_append]
    rfl

theorem sum_zero {α : Type} {f : α → Nat} : ∀ {xs : List α}, (∀ x ∈ xs, f x = 0) → (xs.map f).sum = 0
  | [], _ => rfl
  | x :: xs, h => by rw [List.map_cons, List.sum_cons, h x (by simp), sum_zero fun y hy => h y (by simp [hy])]

theorem sum_same {α : Type} {f g : α → Nat} : ∀ {xs : List α}, (∀ x ∈ xs, f x = g x) → (xs.map f).sum = (xs.map g).sum
  | [], _ => rfl
  | x :: xs, h => by
    rw [List.map_cons, List.sum_cons, h x (by simp), sum_same fun y hy => h y (by simp [hy]), List.map_cons, List.sum_cons]

variable {C : Ctx} (hw : OrdinaryWord C w) {P : PCtx} (hC : P.C = C) (hp : P.L.argNames = ps)
include hw hC hp

theorem wc_asm {a : Asm} (h : StmtOnce w ps (.asm a)) : wordCount w (a.toks P) = leafCount w ps (asmLeaves a) := by
  rw [StmtOnce] at h
  have hm := match_plain (outs := a.outputs) (ins := a.inputs) fun o ho => (h.2 o ho).1
  have hd : ∀ d : Dir, wordCount w d.toks = 0 := fun d => wc_fixed hw (by cases d <;> decide)
  have hr : ∀ r : RegConstraint, wordCount w r.toks = 0 := fun r => by
    cases r with
    | digit n => rfl
    | _ => exact wc_fixed hw (by decide)
  have ho : (a.outputs.map fun o => wordCount w (match o with | (d, r, e) => d.toks ++ q!"(" ++ r.toks ++ q!")" ++ e.toks P)).sum =
      (a.outputs.map fun o => leafCount w ps (exprLeaves o.2.2)).sum := sum_same fun o hm => by
    obtain ⟨d, r, e⟩ := o
    simp only [wc_append, hd, hr, wc_fixed hw (ts := q!"(") (by decide), wc_fixed hw (ts := q!")") (by decide), wc_expr hw hC hp (h.1 _ hm), Nat.zero_add]
  have hi : (a.inputs.map fun o => wordCount w (match o with | (r, e) => q!"in (" ++ r.toks ++ q!")" ++ e.toks P)).sum =
      (a.inputs.map fun o => leafCount w ps (exprLeaves o.2)).sum := sum_same fun o hm => by
    obtain ⟨r, e⟩ := o
    simp only [wc_append, hr, wc_fixed hw (ts := q!"in (") (by decide), wc_fixed hw (ts := q!")") (by decide), wc_expr hw hC hp (h.2 _ hm).2, Nat.zero_add]
  subst hC
  unfold Asm.toks
  rw [hm]
  dsimp only
  generalize hclob : (if a.isGlobal = true then _ else List.filter _ _ : List Str) = clob
  generalize hopts : ((if a.isAtt = true then _ else _) ++ _ : List (List RTok)) = opts
  have hopt : (opts.map (wordCount w)).sum = 0 := by
    refine sum_zero fun x hx => ?_
    have : x ∈ [q!"att_syntax", q!"nomem", q!"preserves_flags"] := by
      rw [← hopts] at hx
      simp only [List.mem_append] at hx
      rcases hx with hx | hx
      · split at hx <;> simp_all
      · split at hx
        · simp at hx
        · simp only [List.mem_append] at hx
          rcases hx with hx | hx <;> split at hx <;> simp_all
    exact wc_fixed hw ((by decide : ∀ x ∈ [q!"att_syntax", q!"nomem", q!"preserves_flags"], fixedWords x = true) x this)
  have ht : ((a.template.map fun t => [RTok.str t]).map (wordCount w)).sum = 0 := sum_zero fun x hx => by
    obtain ⟨t, _, rfl⟩ := List.mem_map.1 hx; rfl
  have hcl : ((clob.map fun c => q!"out (" ++ [.str c] ++ q!") _").map (wordCount w)).sum = 0 := sum_zero fun x hx => by
    obtain ⟨t, _, rfl⟩ := List.mem_map.1 hx
    simp only [wc_append, wc_fixed hw (ts := q!"out (") (by decide), wc_fixed hw (ts := q!") _") (by decide)]
    rfl
  have hg : wordCount w (if a.isGlobal = true then q!"global_asm !" else q!"asm !") = 0 := by
    split <;> exact wc_fixed hw (by decide)
  have hab : wordCount w (if (a.isGlobal || clob.isEmpty) = true then [] else q!"clobber_abi (" ++ [.str c!"C"] ++ q!") ,") = 0 := by
    split
    · rfl
    · exact wc_fixed hw (by decide)
  have hos : wordCount w (if opts.isEmpty = true then [] else q!"options (" ++ sepToks q!"," opts ++ q!") ,") = 0 := by
    split
    · rfl
    · simp only [wc_append, wc_sep hw (sep := q!",") (by decide), hopt, wc_fixed hw (ts := q!"options (") (by decide), wc_fixed hw (ts := q!") ,") (by decide)]
  rw [List.map_map] at ht hcl
  simp only [wc_append, wc_trait hw, wc_comma, hg, hab, hos, wc_fixed hw (ts := q!"arch ::") (by decide), wc_fixed hw (ts := q!"(") (by decide),
    wc_fixed hw (ts := q!")") (by decide), List.map_map, Nat.zero_add, Nat.add_zero, asmLeaves, lc_append, lc_flatMap]
  rw [ht, hcl, ← ho, ← hi, Nat.zero_add, Nat.add_zero]
  rfl

theorem wc_fnDecl (d : FunctionDecl) : wordCount w (d.toks P) = leafCount w ps (stmtLeaves (.fnDecl d)) := by
  have ha : (d.args.map fun a => wordCount w (match a with | (t, n) => n.toks P ++ q!":" ++ t.toks P)).sum =
      (d.args.map fun a => leafCount w ps (tyLeaves a.1 ++ nameLeaves a.2)).sum := sum_same fun a _ => by
    obtain ⟨t, n⟩ := a
    simp only [wc_append, wc_name hw hC hp, wc_ty hw hC hp, wc_fixed hw (ts := q!":") (by decide), lc_append]
    omega
  unfold FunctionDecl.toks
  simp only [wc_append, wc_sep hw (sep := q!",") (by decide), List.map_map, wc_name hw hC hp, wc_ty hw hC hp, stmtLeaves, lc_append, lc_flatMap,
    wc_fixed hw (ts := q!"extern") (by decide), wc_fixed hw (ts := [.str c!"C"]) (by decide), wc_fixed hw (ts := q!"{ pub fn") (by decide),
    wc_fixed hw (ts := q!"(") (by decide), wc_fixed hw (ts := q!") ->") (by decide), wc_fixed hw (ts := q!"; }") (by decide)]
  simp only [lc_append] at ha
  rw [← ha]
  simp only [Function.comp_def]
  omega

theorem wc_varDecl {d : VarDecl} (h : StmtOnce w ps (.varDecl d)) : wordCount w (d.toks P) = leafCount w ps (stmtLeaves (.varDecl d)) := by
  rw [StmtOnce] at h
  have : wordCount w (if d.isStatic = true then q!"static mut" else q!"let mut") = 0 := by split <;> exact wc_fixed hw (by decide)
  unfold VarDecl.toks
  simp only [wc_append, this, wc_name hw hC hp, wc_ty hw hC hp, wc_expr hw hC hp h.2, wc_fixed hw (ts := q!":") (by decide), wc_fixed hw (ts := q!"=") (by decide),
    stmtLeaves, lc_append]
  omega

mutual

theorem wc_stmt : ∀ {s : Stmt}, StmtOnce w ps s → wordCount w (s.toks P) = leafCount w ps (stmtLeaves s)
  | .asm a, h => by rw [Stmt.toks, wc_append, wc_asm hw hC hp h, stmtLeaves]; rfl
  | .expr e, h => by
    rw [StmtOnce] at h
    rw [Stmt.toks, wc_append, wc_expr hw hC hp h, stmtLeaves]; rfl
  | .fnDecl d, _ => by rw [Stmt.toks, wc_fnDecl hw hC hp]
  | .varDecl d, h => by rw [Stmt.toks, wc_append, wc_varDecl hw hC hp h]; rfl
  | .block ss, h => by
    rw [StmtOnce] at h
    rw [Stmt.toks, wc_append, wc_append, wc_flatten, wc_stmts h, stmtLeaves, wc_fixed hw (ts := q!"{") (by decide), wc_fixed hw (ts := q!"}") (by decide)]
    omega
  | .ite c t f, h => by
    rw [StmtOnce] at h
    have hf : wordCount w (if f.isEmpty then [] else q!"else {" ++ sepToks q!";" (Stmt.toksL P f) ++ q!"}") = leafCount w ps (stmtsLeaves f) := by
      have h3 := wc_stmts (ss := f) h.2.2
      split
      · rename_i hf
        rw [List.isEmpty_iff.1 hf]; rfl
      · simp only [wc_append, wc_sep hw (sep := q!";") (by decide), h3, wc_fixed hw (ts := q!"else {") (by decide), wc_fixed hw (ts := q!"}") (by decide)]
        omega
    have ht : (Stmt.ite c t f).toks P = q!"if" ++ c.toks P ++ q!"{" ++ (Stmt.toksL P t).flatten ++ q!"}"
      ++ (if f.isEmpty then [] else q!"else {" ++ sepToks q!";" (Stmt.toksL P f) ++ q!"}") := by
      clear hf h
      cases f <;> rw [Stmt.toks.eq_def] <;> rfl
    rw [ht]
    simp only [wc_append, hf, wc_flatten, wc_stmts h.2.1, wc_expr hw hC hp h.1, stmtLeaves, lc_append, wc_fixed hw (ts := q!"if") (by decide),
      wc_fixed hw (ts := q!"{") (by decide), wc_fixed hw (ts := q!"}") (by decide)]
    omega
  | .doWhile b c, h => by
    rw [StmtOnce] at h
    rw [Stmt.toks]
    simp only [wc_append, wc_flatten, wc_stmts h.1, wc_expr hw hC hp h.2, stmtLeaves, lc_append, wc_fixed hw (ts := q!"loop {") (by decide),
      wc_fixed hw (ts := q!"if") (by decide), wc_fixed hw (ts := q!"{ continue } break }") (by decide)]
    omega

theorem wc_stmts : ∀ {ss : List Stmt}, StmtsOnce w ps ss → ((Stmt.toksL P ss).map (wordCount w)).sum = leafCount w ps (stmtsLeaves ss)
  | [], _ => rfl
  | s :: ss, h => by
    rw [StmtsOnce] at h
    rw [Stmt.toksL, List.map_cons, List.sum_cons, wc_stmt h.1, wc_stmts h.2, stmtsLeaves, lc_append]

end

end

/-! ## Finishing -/

section
variable {w : Str} {ps : List Str} {C : Ctx} {L : Loc}

theorem tyOnce_zero : ∀ {t : Ty}, leafCount w ps (tyLeaves t) = 0 → TyOnce w ps t
  | .builtIn _, _ => trivial
  | .ident (.plain id) _, h => by
    rintro rfl
    simp [tyLeaves, nameLeaves, leafCount] at h
  | .ident (.arg _) _, _ => trivial
  | .ident (.concat _) _, _ => trivial
  | .path _ segs, h => by
    intro hm
    rw [tyLeaves, leafCount, List.countP_eq_zero] at h
    exact h (.name w) (List.mem_map.2 ⟨w, hm, rfl⟩) (by simp)
  | .ptr t, h => h
  | .qualified t _, h => tyOnce_zero (t := t) h

/-- A name that finishing does not introduce. -/
structure Unbuilt (C : Ctx) (w : Str) : Prop where
  types : ∀ id t, C.resolveTy id = some t → w ∉ rtyWords t
  wchar : w ≠ c!"wchar_t"

theorem unbuilt {C : Ctx} {w : Str} (h : OrdinaryWord C w) : Unbuilt C w := ⟨h.types, by rintro rfl; exact h.own (by decide)⟩

theorem ty_finish_count (hw : Unbuilt C w) : ∀ (t : Ty) (st : LState),
    (leafCount w ps (tyLeaves t) = 0 → leafCount w ps (tyLeaves (t.finish C st).tree) = 0) ∧
    (TyOnce w ps t → TyOnce w ps (t.finish C st).tree ∧ leafCount w ps (tyLeaves (t.finish C st).tree) = leafCount w ps (tyLeaves t))
  | .builtIn b, st => ⟨id, fun h => ⟨h, rfl⟩⟩
  | .ident name s, st => by
    have hsame : ∀ t', t' = Ty.ident name s → (leafCount w ps (tyLeaves (.ident name s)) = 0 → leafCount w ps (tyLeaves t') = 0) ∧
      (TyOnce w ps (.ident name s) → TyOnce w ps t' ∧ leafCount w ps (tyLeaves t') = leafCount w ps (tyLeaves (.ident name s))) := by
      rintro _ rfl; exact ⟨id, fun h => ⟨h, rfl⟩⟩
    rw [Ty.finish]
    split
    · exact hsame _ rfl
    · split
      · rename_i x _
        split
        · exact hsame _ rfl
        · rename_i t hr
          split
          · rename_i t' ht'
            have h0 := lc_fromRust (ps := ps) (hw.types _ _ hr) ht'
            refine ⟨fun _ => h0, fun h => ⟨tyOnce_zero h0, ?_⟩⟩
            dsimp only
            rw [h0]
            exact (lc_names (xs := [x]) (by simpa using Ne.symm h)).symm
          · exact hsame _ rfl
      · exact hsame _ rfl
  | .path lc segs, st => ⟨id, fun h => ⟨h, rfl⟩⟩
  | .ptr t, st => by
    have h := ty_finish_count hw t st
    rw [Ty.finish]
    refine ⟨h.1, fun ho => ⟨h.1 ho, ?_⟩⟩
    show leafCount w ps (tyLeaves (t.finish C st).tree) = leafCount w ps (tyLeaves t)
    rw [h.1 ho]; exact ho.symm
  | .qualified t q, st => ty_finish_count hw t st

/-- What finishing keeps. -/
def KeepsCount (w : Str) (ps : List Str) (f : Expr → LState → Fin Expr) : Prop :=
  ∀ e st, ExprOnce w ps e → ExprOnce w ps (f e st).tree ∧ leafCount w ps (exprLeaves (f e st).tree) = leafCount w ps (exprLeaves e)

end

end CMacro
