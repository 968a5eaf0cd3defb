import Verif.Spec.MacroValue
import Verif.Props.FnTotal

/-!
# Putting arguments in place of parameters
-/

namespace CMacro
open Spec

variable {W : Widths} {pre : Option RPath} {env env' : List RTok → Option (IntTy × Int)} {σ : List RTok → Option RExpr}

theorem typed_inserted (hσ : ∀ x a, σ x = some a → typed a = true) : ∀ {u : RExpr}, typed u = true → typed (inserted σ u) = true
  | .name x, _ => by
    rw [inserted]
    cases h : σ x with
    | none => rfl
    | some a => exact hσ x a h
  | .un op e, h => by rw [inserted]; exact typed_inserted (u := e) hσ h
  | .bin op l r, h => by
    rw [inserted, typed]
    rw [typed] at h
    split at h
    · next ho => rw [if_pos ho]; exact typed_inserted hσ h
    · next ho =>
      rw [if_neg ho, Bool.or_eq_true]
      rw [Bool.or_eq_true] at h
      exact h.imp (typed_inserted hσ) (typed_inserted hσ)
  | .cast e ty, _ | .max ty, _ => by rw [inserted]; rfl
  | .ite c t f, h => by
    rw [inserted, typed, Bool.or_eq_true]
    rw [typed, Bool.or_eq_true] at h
    exact h.imp (typed_inserted hσ) (typed_inserted hσ)
  | .num _ _, h | .float _, h | .char _, h | .field _ _, h | .call _ _, h | .method _ _ _, h => by simp [typed] at h

theorem type_inserted {Fin : LitFloat → Prop} {Γ Γ' : List RTok → Option (List RTok)}
    (hσ : ∀ x τ, Γ x = some τ → ∃ a, σ x = some a ∧ HasType Fin pre Γ' a τ) {u : RExpr} {τ : List RTok}
    (h : HasType Fin pre Γ u τ) : HasType Fin pre Γ' (inserted σ u) τ := by
  induction h with
  | name h =>
    obtain ⟨a, ha, ht⟩ := hσ _ _ h
    rw [inserted, ha]
    exact ht
  | num h => exact .num h
  | max h => exact .max h
  | suffixed h => exact .suffixed h
  | float h => exact .float h
  | neg h _ ih => exact .neg h ih
  | not h _ ih => exact .not h ih
  | arith h h' _ _ ihl ihr => exact .arith h h' ihl ihr
  | bits h h' _ _ ihl ihr => exact .bits h h' ihl ihr
  | shift h h' h'' _ _ ihl ihr => exact .shift h h' h'' ihl ihr
  | compare h h' _ _ ihl ihr => exact .compare h h' ihl ihr
  | logic h _ _ ihl ihr => exact .logic h ihl ihr
  | cast h _ ih => exact .cast h ih
  | ite _ _ _ ihc iht ihf => exact .ite ihc iht ihf

/-- Arguments with the types and values of the parameters give the expression the value it has for the parameters. -/
theorem eval_inserted (hσ : ∀ x t v, env x = some (t, v) → ∃ a, σ x = some a ∧ RustEval W pre env' a (.int t v))
    (hty : ∀ x a, σ x = some a → typed a = true) {u : RExpr} {o : Outcome} (h : RustEval W pre env u o) :
    RustEval W pre env' (inserted σ u) o := by
  have ht : ∀ {u τ}, HasType (fun _ => False) pre (typesIn pre env) u τ → HasType (fun _ => False) pre (typesIn pre env') (inserted σ u) τ := by
    refine fun h => type_inserted (fun x τ hx => ?_) h
    unfold typesIn at hx
    cases he : env x with
    | none => rw [he] at hx; cases hx
    | some p =>
      rw [he] at hx
      cases hx
      obtain ⟨a, ha, hv⟩ := hσ x p.1 p.2 he
      exact ⟨a, ha, eval_hasType _ hv⟩
  induction h with
  | name h =>
    obtain ⟨a, ha, hv⟩ := hσ _ _ _ h
    rw [inserted, ha]
    exact hv
  | num h => exact .num h
  | max => exact .max
  | negNum h h' => exact .negNum h h'
  | neg h _ h' ih => exact .neg h ih h'
  | comp _ ih => exact .comp ih
  | bin h h' _ _ hv hq hh ihl ihr => exact .bin h h' ihl ihr hv hq hh
  | shl _ h _ h1 h2 h3 ihl ihr => exact .shl ihl (h.imp_left (typed_inserted hty)) ihr h1 h2 h3
  | shr _ h _ h1 ihl ihr => exact .shr ihl (h.imp_left (typed_inserted hty)) ihr h1
  | cast h _ h1 h2 ih => exact .cast (typed_inserted hty h) ih h1 h2
  | castNum h => exact .castNum h
  | castComp h => exact .castComp h
  | castLit h1 h2 h3 h4 => exact .castLit h1 h2 h3 h4
  | castNegLit h1 h2 h3 h4 h5 => exact .castNegLit h1 h2 h3 h4 h5
  | cmp h h' h'' _ _ ihl ihr =>
    refine .cmp h h' ?_ ihl ihr
    rw [Bool.or_eq_true] at h'' ⊢
    exact h''.imp (typed_inserted hty) (typed_inserted hty)
  | not _ ih => exact .not ih
  | andFalse _ h ih => exact .andFalse ih (ht h)
  | andTrue _ _ ihl ihr => exact .andTrue ihl ihr
  | orTrue _ h ih => exact .orTrue ih (ht h)
  | orFalse _ _ ihl ihr => exact .orFalse ihl ihr
  | iteTrue _ _ h ihc ihx => exact .iteTrue ihc ihx (ht h)
  | iteFalse _ h _ ihc ihy => exact .iteFalse ihc (ht h) ihy

/-- The parameters of a macro by their text. -/
def byMeta (ps : List (Str × IntTy × Int)) : List RTok → Option (IntTy × Int)
  | [.punct p, .id x] => if p = c!"$" then ps.lookup x else none
  | _ => none

theorem lookup_of : ∀ {ps : List (Str × IntTy × Int)}, (ps.map (·.1)).Nodup → ∀ (i : Nat) (p : Str × IntTy × Int), ps[i]? = some p →
    ps.lookup p.1 = some p.2 := fun hn i p h => byName_of hn i p h

theorem lookup_args : ∀ {ps : List (Str × IntTy × Int)} {as : List RExpr}, as.length = ps.length → ∀ {x : Str} {q : IntTy × Int},
    ps.lookup x = some q → ∃ (i : Nat) (p : Str × IntTy × Int) (a : RExpr), ps[i]? = some p ∧ p.2 = q ∧ as[i]? = some a ∧ ((ps.map (·.1)).zip as).lookup x = some a
  | [], _, _, x, q, h => by simp at h
  | p :: ps, [], h, _, _, _ => by simp at h
  | p :: ps, a :: as, hl, x, q, h => by
    simp only [List.lookup] at h
    simp only [List.map_cons, List.zip_cons_cons, List.lookup]
    cases hx : x == p.1 with
    | true => rw [hx] at h; exact ⟨0, p, a, rfl, Option.some.inj h, rfl, rfl⟩
    | false =>
      rw [hx] at h
      obtain ⟨i, p', a', h1, h2, h3, h4⟩ := lookup_args (ps := ps) (as := as) (by simpa using hl) h
      exact ⟨i + 1, p', a', by simpa using h1, h2, by simpa using h3, h4⟩

theorem lookup_arg : ∀ {xs : List Str} {as : List RExpr} {x : Str} {a : RExpr}, (xs.zip as).lookup x = some a → ∃ i, as[i]? = some a ∧ i < xs.length
  | [], _, _, _, h => by simp at h
  | _ :: _, [], _, _, h => by simp at h
  | y :: xs, b :: as, x, a, h => by
    simp only [List.zip_cons_cons, List.lookup] at h
    split at h
    · exact ⟨0, by rw [← Option.some.inj h]; rfl, by simp⟩
    · obtain ⟨i, h1, h2⟩ := lookup_arg h
      exact ⟨i + 1, by simpa using h1, by simpa using h2⟩

/-- A call of a macro. -/
theorem eval_call {ps : List (Str × IntTy × Int)} {as : List RExpr} (ha : ArgValues W pre env ps as)
    {u : RExpr} {o : Outcome} (h : RustEval W pre (byMeta ps) u o) : RustEval W pre env (inserted (callArgs (ps.map (·.1)) as) u) o := by
  refine eval_inserted (fun x t v hx => ?_) (fun x a hx => ?_) h
  · unfold byMeta at hx
    split at hx
    · split at hx
      · next hp =>
        obtain ⟨i, p, a, h1, h2, h3, h4⟩ := lookup_args ha.1 hx
        refine ⟨a, by rw [callArgs, if_pos hp, h4], ?_⟩
        have := (ha.2 i p a h1 h3).2
        rw [h2] at this
        exact this
      · cases hx
    · cases hx
  · unfold callArgs at hx
    split at hx
    · split at hx
      · obtain ⟨i, h1, h2⟩ := lookup_arg hx
        rw [List.length_map] at h2
        exact (ha.2 i _ a (List.getElem?_eq_getElem h2) h1).1
      · cases hx
    · cases hx

/-! ## The parameters -/

theorem argTypes_each {C : Ctx} {name : Str} : ∀ {as : List Str} {ts : List ArgTy}, argTypes C name as = .ok ts → ∀ (i : Nat) (a : Str), as[i]? = some a →
    ∃ t, ts[i]? = some t ∧ (t = .unknown ∨ ∃ r τ, C.macroArgTy name a = some r ∧ Ty.fromRust C.ffiPrefix r = .ok τ ∧ t = .known τ)
  | [], _, _, i, a, h => by simp at h
  | b :: as, ts, hty, i, a, h => by
    rw [argTypes] at hty
    split at hty
    · cases hty
    · next t ht =>
      split at hty
      · cases hty
      · next ts' hts =>
        cases hty
        cases i with
        | succ i => exact argTypes_each hts i a (by simpa using h)
        | zero =>
          cases h
          refine ⟨t, rfl, ?_⟩
          split at ht
          · next r hr =>
            split at ht
            · next τ hτ => exact .inr ⟨r, τ, hr, hτ, (Except.ok.inj ht).symm⟩
            · cases ht
          · exact .inl (Except.ok.inj ht).symm

theorem macroParams_expr : ∀ {as : List Str} {ts : List ArgTy}, as.length = ts.length → c!"..." ∉ as →
    (∀ t ∈ ts, t = .unknown ∨ ∃ τ, t = .known τ) → macroParams as ts = exprParams as
  | [], [], _, _, _ => rfl
  | [], _ :: _, h, _, _ => by simp at h
  | _ :: _, [], h, _, _ => by simp at h
  | a :: as, t :: ts, hl, hv, ht => by
    simp only [List.mem_cons, not_or] at hv
    have hf : t.fragment = c!"expr" := by
      rcases ht t List.mem_cons_self with rfl | ⟨τ, rfl⟩ <;> rfl
    rw [macroParams, if_neg (Ne.symm hv.1), hf,
      macroParams_expr (by simpa using hl) hv.2 fun t h => ht t (List.mem_cons_of_mem _ h)]
    rfl

theorem argTypes_plain {C : Ctx} {name : Str} : ∀ {as : List Str} {ts : List ArgTy}, argTypes C name as = .ok ts →
    as.length = ts.length ∧ ∀ t ∈ ts, t = .unknown ∨ ∃ τ, t = .known τ
  | [], ts, h => by cases h; simp
  | b :: as, ts, hty => by
    rw [argTypes] at hty
    split at hty
    · cases hty
    · next t ht =>
      split at hty
      · cases hty
      · next ts' hts =>
        cases hty
        obtain ⟨h1, h2⟩ := argTypes_plain hts
        refine ⟨by simp [h1], fun s hs => ?_⟩
        rcases List.mem_cons.1 hs with rfl | hs
        · split at ht
          · split at ht
            · exact .inr ⟨_, (Except.ok.inj ht).symm⟩
            · cases ht
          · exact .inl (Except.ok.inj ht).symm
        · exact h2 s hs

theorem link_agreed {C : Ctx} {name : Str} {ps : List (Str × IntTy × Int)} {tys : List ArgTy} (hty : argTypes C name (ps.map (·.1)) = .ok tys)
    (hd : Agreed C name ps) (hnd : (ps.map (·.1)).Nodup) (hk : ∀ p ∈ ps, p.1 ≠ c!"...")
    (hroot : Rooted C.ffiPrefix) : Link ⟨C, fnLoc (ps.map (·.1)), true⟩ ⟨tys, false⟩ (byIndex ps) (byMeta ps) := by
  refine link_of hnd (fun i x p h hx => ?_) (fun i p hp => ?_) (fun p hp => ⟨hk p hp, by rintro ⟨⟩⟩) hroot
  · cases hx
    exact lookup_of hnd i p h
  · obtain ⟨t, h1, h2⟩ := argTypes_each hty i p.1 (by simp [hp])
    refine ⟨by simp [fnLoc, hp], t, h1, ?_⟩
    rintro τ rfl
    rcases h2 with h2 | ⟨r, τ', hr, hτ, h2⟩
    · cases h2
    · cases h2
      obtain rfl := hd p (List.mem_of_getElem? hp) r hr
      rw [fromRust_int] at hτ
      cases hτ
      exact tyText_is _ _

end CMacro
