import Verif.UnitParser.Laws

/-! # C74: parsing translation units

What the parser accepts, with which tree, against the grammar of `Verif.UnitParser.Spec`. -/

namespace Kefir.UnitParser
open Kefir.Lexer (Punct Keyword)
open Kefir.Parser (Tok Expr Res lp rp comma colon headIs)
open Kefir.Declr
open Kefir.DeclParser (Syn tokKw IsDecl IsExpr SpecsOk semi vaListName)

/-! ### All of what is common -/

/-- C74: a translation unit that is derived in the common grammar is one of C17, with the same tree. -/
theorem C74_common_is_c17 {ts : List Tok} {xs : List External} (h : IsUnit .common ts xs) : IsUnit .c17 ts xs := by
  obtain ⟨hn, σ, h⟩ := h
  obtain ⟨τ, -, h⟩ := h.c17 (.refl _)
  exact ⟨hn, τ, h⟩

/-- C74: the theorems named `partial` apply to it. -/
theorem C74_common_is_accepted {ts : List Tok} {xs : List External} (h : IsUnit .common ts xs) : IsUnit .accept ts xs := by
  obtain ⟨hn, σ, h⟩ := h
  exact ⟨hn, σ, h.accept⟩

/-- C74: a translation unit is accepted and given its tree.  Missing are the places where kefir differs from C17: the
dialect is the one with kefir's scopes, and what `C73` excludes in declarations is excluded here. -/
theorem C74_units_partial {ts : List Tok} {xs : List External} (h : IsUnit .accept ts xs) :
    translationUnit ts = .ok xs [] := h.ok

/-- C74: the same for statements, in every scope and before whatever may follow: after an `if` without `else`, no `else`
does.  Afterwards the scope is the one the grammar gives. -/
theorem C74_statements_partial {σ σ' : Scope} {ts : List Tok} {st : Stmt} (h : Statement .accept .stmt σ ts st σ')
    (hn : σ ≠ []) {rest : List Tok} (hr : st.isOpen = true → headIs (tokKw .kElse) rest = false) :
    run .statement σ (ts ++ rest) = .ok (st, σ') rest := h.ok hn rest hr

/-- C74: the same for declarations. -/
theorem C74_declarations_partial {σ σ' : Scope} {ts : List Tok} {d : Decl} (h : Declaration .accept σ ts d σ')
    (hn : σ ≠ []) (rest : List Tok) : declaration σ (ts ++ rest) = .ok (d, σ') rest := h.ok hn rest

/-! ### Only that -/

/-- C74: what is accepted as a translation unit is one of kefir's dialect, and the tree is the one it has there.  All
tokens are consumed. -/
theorem C74_units_accepted {ts r : List Tok} {xs : List External} (h : translationUnit ts = .ok xs r) :
    r = [] ∧ IsUnit .kefir ts xs := translationUnit_sound h

/-- C74: the same for statements; an `else` that could belong to what has been consumed has been consumed. -/
theorem C74_statements_accepted {σ σ' : Scope} {ts r : List Tok} {st : Stmt}
    (h : run .statement σ ts = .ok (st, σ') r) :
    ∃ pre, ts = pre ++ r ∧ Statement .kefir .stmt σ pre st σ' ∧
      (st.isOpen = true → headIs (tokKw .kElse) r = false) := run_sound .statement σ ts (st, σ') r h

/-- C74: the same for declarations. -/
theorem C74_declarations_accepted {σ σ' : Scope} {ts r : List Tok} {d : Decl}
    (h : declaration σ ts = .ok (d, σ') r) : ∃ pre, ts = pre ++ r ∧ Declaration .kefir σ pre d σ' :=
  declaration_sound h

/-! ### In general -/

/-- C74: every sequence of tokens is parsed, or rejected. -/
theorem C74_terminates (ts : List Tok) : translationUnit ts ≠ .fuel := (translationUnit_fits ts).1

/-- C74: the grammar gives a translation unit one tree. -/
theorem C74_unambiguous {ts : List Tok} {xs xs' : List External} (h : IsUnit .accept ts xs) (h' : IsUnit .accept ts xs') :
    xs = xs' := by
  have := h.ok.symm.trans h'.ok
  cases this
  rfl

/-- C74: an `else` belongs to the nearest `if`, whatever the conditions and the statements are. -/
theorem C74_nearest_if {σ : Scope} {t1 t2 s1 s2 rest : List Tok} {e1 e2 : Expr Syn} {st1 st2 : Stmt} {σ1 σ2 : Scope}
    (hn : σ ≠ []) (h1 : IsExpr .common .common σ.names .expr t1 e1) (h2 : IsExpr .common .common σ.names .expr t2 e2)
    (h3 : Statement .common .stmt σ s1 st1 σ1) (ho : st1.isOpen = false) (h4 : Statement .common .stmt σ1 s2 st2 σ2)
    (hr : headIs (tokKw .kElse) rest = false) :
    run .statement σ (.kw .kIf :: lp :: t1 ++ rp :: .kw .kIf :: lp :: t2 ++ rp :: s1 ++ .kw .kElse :: s2 ++ rest) =
      .ok (.ifThen e1 (.ifElse e2 st1 st2), σ2) rest := by
  have h : Statement .common .stmt σ (.kw .kIf :: lp :: t1 ++ rp :: (.kw .kIf :: lp :: t2 ++ rp :: s1 ++ .kw .kElse :: s2))
      (.ifThen e1 (.ifElse e2 st1 st2)) σ2 := .ifThen h1 (.ifElse h2 h3 ho h4)
  have := C74_statements_partial h.accept hn (rest := rest) (fun _ => hr)
  rw [← this]
  simp

/-! ### Examples -/

private abbrev kw (k : Keyword) : Tok := .kw k
private abbrev id' (s : String) : Tok := .ident s
private abbrev num (n : Nat) : Tok := .const .integer n
private abbrev lbrace : Tok := .punct .leftBrace
private abbrev rbrace : Tok := .punct .rightBrace
private abbrev star : Tok := .punct .star
private abbrev tInt : Spec Syn := .type (.word .int)
private abbrev tVoid : Spec Syn := .type (.word .void)
private abbrev tName (s : String) : Spec Syn := .type (.typedefName s)

section
variable {p : Parser.Dialect} {d : DeclParser.Dialect} {td : String → Bool}

theorem word_specs (w : Word) : IsDecl p d td (.specs false) [.kw (DeclParser.Word.kw w)] [.type (.word w)] :=
  .specsCons (ts' := []) (.word w) .specsNil

theorem int_specs : IsDecl p d td (.specs false) [.kw .kInt] [tInt] := word_specs .int

theorem void_specs : IsDecl p d td (.specs false) [.kw .kVoid] [tVoid] := word_specs .void

theorem typedef_specs : IsDecl p d td (.specs false) [.kw .kTypedef, .kw .kInt] [.storage .typedef, tInt] :=
  .specsCons (ts := [.kw .kTypedef]) (ts' := [.kw .kInt]) (.storage .typedef) (word_specs .int)

theorem name_specs {s : String} (h : td s = true) (hv : s ≠ vaListName) :
    IsDecl p d td (.specs false) [.ident s] [tName s] := .specsCons (ts' := []) (.typedefName h hv) .specsNil

theorem name_dtor {s : String} (hv : s ≠ vaListName) : IsDecl p d td .dtor [.ident s] (.name (some s)) :=
  .dtorDirect (.name (.inr hv))

theorem ok_of {ss : List (Spec Syn)} (hn : ss ≠ []) (h : ss.any DeclParser.isType = true) : SpecsOk d false ss :=
  ⟨hn, .inr h, fun h => by cases h⟩

theorem cast_assign {ts : List Tok} {e : Expr Syn} (h : IsExpr p d td .cast ts e) : IsExpr p d td .assign ts e :=
  .assignCond (.condBin (.binOperand (.binOperand (.binOperand (.binOperand (.binOperand (.binOperand (.binOperand
    (.binOperand (.binOperand (.binOperand h)))))))))))

theorem primary_cast {ts : List Tok} {e : Expr Syn} (h : IsExpr p d td .primary ts e) : IsExpr p d td .cast ts e :=
  .castUnary (.unaryPostfix (.postfixPrimary h))

theorem num_primary (n : Nat) : IsExpr p d td .primary [.const .integer n] (.const .integer n) := .const

theorem var_primary {s : String} (h : td s = false) (hb : Parser.builtinNames.lookup s = none) :
    IsExpr p d td .primary [.ident s] (.ident s) := .ident h hb

theorem primary_expr {ts : List Tok} {e : Expr Syn} (h : IsExpr p d td .primary ts e) : IsExpr p d td .expr ts e :=
  .exprAssign (cast_assign (primary_cast h))

/-- `f(void)` -/
theorem fVoid_dtor : IsDecl p d td .dtor [id' "f", lp, kw .kVoid, rp]
    (.fn (.name (some "f")) (.decl [tVoid] (.name none) .nil) false) :=
  .dtorDirect (.func (ts := [id' "f"]) (.name (.inr (by decide)))
    (.parensList (a := false) (ts := [kw .kVoid]) (.paramsOne (.paramNone void_specs (ok_of (by simp) rfl)))))

end

/-- `typedef int T;` -/
theorem typedefT {D : Dialect} :
    Declaration D [[]] [kw .kTypedef, kw .kInt, id' "T", semi] (.decl [.storage .typedef, tInt] [(.name (some "T"), none)])
      [[("T", true)]] :=
  .decl (ts := [kw .kTypedef, kw .kInt]) (ts' := [id' "T"]) typedef_specs (ok_of (by simp) rfl) (fun h => by simp at h)
    (.one (.plain ⟨name_dtor (by decide), fun _ => name_dtor (by decide)⟩ (fun _ => rfl)))

theorem same_of_false {s : String} {σ : Scope} (h : ∀ k, Scope.lookup (σ.drop k) s ≠ some true) :
    σ.Same (σ.declare false s) := by
  intro k x
  cases k with
  | zero =>
    rw [List.drop_zero, List.drop_zero, Scope.lookup_declare]
    split
    · rename_i hx
      rw [beq_iff_eq] at hx
      subst hx
      exact ⟨fun hh => absurd hh (h 0), fun hh => by cases hh⟩
    · exact .rfl
  | succ k => rw [Scope.drop_declare]

/-- `typedef int T; void f(void) { T x = 1; if (x) if (2) ; else x; for (int i = 0; i;) ; }` -/
def exUnit : List Tok :=
  [kw .kTypedef, kw .kInt, id' "T", semi] ++
  ([kw .kVoid] ++ [id' "f", lp, kw .kVoid, rp] ++ [] ++ lbrace ::
    ([id' "T", id' "x", .punct .assign, num 1, semi] ++
     ([kw .kIf, lp, id' "x", rp, kw .kIf, lp, num 2, rp, semi, kw .kElse, id' "x", semi] ++
      ([kw .kFor, lp, kw .kInt, id' "i", .punct .assign, num 0, semi, id' "i", semi, rp, semi] ++ []))) ++ [rbrace] ++ [])

/-- Its tree: the `else` belongs to the second `if`. -/
def exUnitTree : List External :=
  [.decl (.decl [.storage .typedef, tInt] [(.name (some "T"), none)]),
   .fn [tVoid] (.fn (.name (some "f")) (.decl [tVoid] (.name none) .nil) false) []
    [.decl (.decl [tName "T"] [(.name (some "x"), some (.const .integer 1))]),
     .stmt (.ifThen (.ident "x") (.ifElse (.const .integer 2) (.expr none) (.expr (some (.ident "x"))))),
     .stmt (.for (.decl (.decl [tInt] [(.name (some "i"), some (.const .integer 0))])) (some (.ident "i")) none
       (.expr none))]]

theorem exUnit_common : IsUnit .common exUnit exUnitTree := by
  have hx : Declaration .common ([] :: [[("T", true)]]) [id' "T", id' "x", .punct .assign, num 1, semi]
      (.decl [tName "T"] [(.name (some "x"), some (.const .integer 1))]) [[("x", false)], [("T", true)]] :=
    .decl (ts := [id' "T"]) (ts' := [id' "x", .punct .assign, num 1]) (name_specs (by decide) (by decide))
      (ok_of (by simp) rfl) (fun h => by simp at h)
      (.one (.init (ts := [id' "x"]) (v := .name (some "x")) ⟨name_dtor (by decide), fun _ => name_dtor (by decide)⟩
        (fun _ => rfl) ⟨.initExpr (cast_assign (primary_cast (num_primary 1))),
          fun _ => .initExpr (cast_assign (primary_cast (num_primary 1)))⟩))
  have hi : Statement .common .stmt [[("x", false)], [("T", true)]]
      [kw .kIf, lp, id' "x", rp, kw .kIf, lp, num 2, rp, semi, kw .kElse, id' "x", semi]
      (.ifThen (.ident "x") (.ifElse (.const .integer 2) (.expr none) (.expr (some (.ident "x")))))
      [[("x", false)], [("T", true)]] :=
    .ifThen (te := [id' "x"]) (primary_expr (var_primary (by decide) rfl))
      (.ifElse (te := [num 2]) (ts := [semi]) (ts' := [id' "x", semi]) (primary_expr (num_primary 2)) (.expr (te := []) .none) rfl
        (.expr (te := [id' "x"]) (.some (primary_expr (var_primary (by decide) rfl)))))
  have hfd : Declaration .common [[("x", false)], [("T", true)]] [kw .kInt, id' "i", .punct .assign, num 0, semi]
      (.decl [tInt] [(.name (some "i"), some (.const .integer 0))]) [[("i", false), ("x", false)], [("T", true)]] :=
    .decl (ts := [kw .kInt]) (ts' := [id' "i", .punct .assign, num 0]) int_specs
      (ok_of (by simp) rfl) (fun h => by simp at h)
      (.one (.init (ts := [id' "i"]) (v := .name (some "i")) ⟨name_dtor (by decide), fun _ => name_dtor (by decide)⟩
        (fun _ => rfl) ⟨.initExpr (cast_assign (primary_cast (num_primary 0))),
          fun _ => .initExpr (cast_assign (primary_cast (num_primary 0)))⟩))
  have hf : Statement .common .stmt [[("x", false)], [("T", true)]]
      [kw .kFor, lp, kw .kInt, id' "i", .punct .assign, num 0, semi, id' "i", semi, rp, semi]
      (.for (.decl (.decl [tInt] [(.name (some "i"), some (.const .integer 0))])) (some (.ident "i")) none (.expr none))
      [[("i", false), ("x", false)], [("T", true)]] :=
    .forDecl (tc := [id' "i"]) (tn := []) (ts := [semi]) hfd (.some (primary_expr (var_primary (by decide) rfl))) .none
      (.expr (te := []) .none) (fun _ => ((same_of_false (s := "i") (σ := [[("x", false)], [("T", true)]])
        (fun k => by
          match k with
          | 0 => decide
          | 1 => decide
          | k + 2 => simp [Scope.lookup])).symm))
  have hg : ∀ s, s ≠ "T" → Scope.Same [[("T", true)]] (Scope.declare false s [[("T", true)]]) := fun s hs =>
    same_of_false (fun k => by
      match k with
      | 0 =>
        have : (s == "T") = false := by simpa using hs
        simp [Scope.lookup, List.lookup, this]
      | k + 1 => simp [Scope.lookup])
  refine ⟨by simp [exUnitTree], _, .cons (.decl typedefT) (.cons (.fn void_specs (ok_of (by simp) rfl) fVoid_dtor
    (fun h => by simp at h) .nil rfl (.itemDecl hx (.itemStmt hi (.inr ?_) (.itemStmt hf (.inr ?_) .itemsNil))) rfl
    (fun _ => hg "f" (by decide)) (fun _ => hg "f" (by decide))) .nil)⟩
  · intro s r h; cases h
  · intro s r h; cases h

example : IsUnit .c17 exUnit exUnitTree := C74_common_is_c17 exUnit_common

example : translationUnit exUnit = .ok exUnitTree [] := C74_units_partial (C74_common_is_accepted exUnit_common)

/-- `if (1) if (2) ; else ;` before `}` -/
example : run .statement [[]] [kw .kIf, lp, num 1, rp, kw .kIf, lp, num 2, rp, semi, kw .kElse, semi, rbrace] =
    .ok (.ifThen (.const .integer 1) (.ifElse (.const .integer 2) (.expr none) (.expr none)), [[]]) [rbrace] :=
  C74_nearest_if (t1 := [num 1]) (t2 := [num 2]) (s1 := [semi]) (s2 := [semi]) (rest := [rbrace]) (by simp)
    (primary_expr (num_primary 1)) (primary_expr (num_primary 2)) (.expr (te := []) .none) rfl (.expr (te := []) .none) rfl

/-! ### Where C17 and kefir differ -/

/-- `typedef int T;` and a definition of `f` without parameters, in C17. -/
theorem unit_c17 {tb : List Tok} {body : List Item} {σ : Scope}
    (h : Statement .c17 .items [[], [("f", false), ("T", true)]] tb body σ) :
    IsUnit .c17 ([kw .kTypedef, kw .kInt, id' "T", semi] ++
        ([kw .kVoid] ++ [id' "f", lp, rp] ++ [] ++ lbrace :: tb ++ [rbrace] ++ []))
      [.decl (.decl [.storage .typedef, tInt] [(.name (some "T"), none)]),
       .fn [tVoid] (.fn (.name (some "f")) .nil false) [] body] := by
  have hd : IsDecl .c17 .c17 (Scope.names [[("T", true)]]) .dtor [id' "f", lp, rp] (.fn (.name (some "f")) .nil false) :=
    .dtorDirect (.func (ts := [id' "f"]) (ps := (.nil, false)) (.name (.inr (by decide))) (.parensEmpty (a := false)))
  exact ⟨by simp, _, .cons (.decl typedefT) (.cons (.fn (D := .c17) void_specs (ok_of (by simp) rfl) hd
    (fun h => by simp at h) .nil rfl h rfl (fun h => by cases h) (fun h => by cases h)) .nil)⟩

/-- C74 fails: a parameter does not hide a typedef.  In `typedef int T; int f(int T, int x) { T * x; }` C17 has a product;
kefir accepts it as a declaration of a pointer. -/
theorem C74_parameter_false :
    ∃ ts ds b b', IsUnit .c17 ts (ds ++ [b]) ∧ translationUnit ts = .ok (ds ++ [b']) [] ∧
      b = .fn [tInt] (.fn (.name (some "f")) (.decl [tInt] (.name (some "T")) (.decl [tInt] (.name (some "x")) .nil)) false)
        [] [.stmt (.expr (some (.binary .multiply (.ident "T") (.ident "x"))))] ∧
      b' = .fn [tInt] (.fn (.name (some "f")) (.decl [tInt] (.name (some "T")) (.decl [tInt] (.name (some "x")) .nil)) false)
        [] [.decl (.decl [tName "T"] [(.ptr [] (.name (some "x")), none)])] := by
  refine ⟨[kw .kTypedef, kw .kInt, id' "T", semi] ++ ([kw .kInt] ++ ([id' "f"] ++ (lp :: ([kw .kInt, id' "T"] ++ comma ::
      [kw .kInt, id' "x"]) ++ [rp])) ++ [] ++ lbrace :: [id' "T", star, id' "x", semi] ++ [rbrace] ++ []),
    [.decl (.decl [.storage .typedef, tInt] [(.name (some "T"), none)])], _, _, ?_, by rfl, rfl, rfl⟩
  have hp : ∀ s, s ≠ vaListName → IsDecl .c17 .c17 (Scope.names [[("T", true)]]) .param [kw .kInt, id' s] ([tInt], .name (some s)) :=
    fun s hs => .paramDtor (ts := [kw .kInt]) int_specs (ok_of (by simp) rfl) (name_dtor hs) (fun h => by simp at h)
      (.inr (by rfl))
  have hd : IsDecl .c17 .c17 (Scope.names [[("T", true)]]) .dtor ([id' "f"] ++ (lp :: ([kw .kInt, id' "T"] ++ comma ::
      [kw .kInt, id' "x"]) ++ [rp])) (.fn (.name (some "f")) (.decl [tInt] (.name (some "T")) (.decl [tInt] (.name (some "x"))
        .nil)) false) :=
    .dtorDirect (.func (.name (.inr (by decide))) (.parensList (a := false) (.paramsCons (hp "T" (by decide)) (.paramsOne
      (hp "x" (by decide))))))
  have he : IsExpr .c17 .c17 (Scope.names [[], [("x", false), ("T", false), ("f", false), ("T", true)]]) .expr
      [id' "T", star, id' "x"] (.binary .multiply (.ident "T") (.ident "x")) :=
    .exprAssign (.assignCond (.condBin (.binOperand (.binOperand (.binOperand (.binOperand (.binOperand (.binOperand
      (.binOperand (.binOperand (.binOperand (.binOp (ta := [id' "T"]) (.binOperand (primary_cast (var_primary (by decide) rfl)))
        (by decide) (primary_cast (var_primary (by decide) rfl))))))))))))))
  exact ⟨by simp, _, .cons (.decl typedefT) (.cons (.fn (D := .c17) int_specs (ok_of (by simp) rfl) hd
    (fun h => by simp at h) .nil rfl (.itemStmt (ts := [id' "T", star, id' "x", semi]) (.expr (te := [id' "T", star, id' "x"]) (.some he)) (.inl rfl) .itemsNil)
    rfl (fun h => by cases h) (fun h => by cases h)) .nil)⟩

/-- C74 fails: a name is not in scope in its own initializer.  In `typedef int T; void f() { char T = sizeof(T); }` C17 has
the size of the variable; kefir takes that of the type. -/
theorem C74_own_initializer_false :
    ∃ ts ds b b', IsUnit .c17 ts (ds ++ [b]) ∧ translationUnit ts = .ok (ds ++ [b']) [] ∧
      b = .fn [tVoid] (.fn (.name (some "f")) .nil false) []
        [.decl (.decl [.type (.word .char)] [(.name (some "T"), some (.unary .sizeof (.ident "T")))])] ∧
      b' = .fn [tVoid] (.fn (.name (some "f")) .nil false) []
        [.decl (.decl [.type (.word .char)] [(.name (some "T"), some (.unary .sizeof (.typeName (.typeName [tName "T"]
          (.name none)))))])] := by
  refine ⟨[kw .kTypedef, kw .kInt, id' "T", semi] ++ ([kw .kVoid] ++ [id' "f", lp, rp] ++ [] ++ lbrace ::
    ([kw .kChar, id' "T", .punct .assign, kw .kSizeof, lp, id' "T", rp, semi] ++ []) ++ [rbrace] ++ []),
    [.decl (.decl [.storage .typedef, tInt] [(.name (some "T"), none)])], _, _, ?_, by rfl, rfl, rfl⟩
  refine unit_c17 (.itemDecl (σ' := [[("T", false)], [("f", false), ("T", true)]]) ?_ .itemsNil)
  have he : IsExpr .c17 .c17 (Scope.names [[("T", false)], [("f", false), ("T", true)]]) .init
      [kw .kSizeof, lp, id' "T", rp] (.unary .sizeof (.ident "T")) :=
    .initExpr (cast_assign (.castUnary (.sizeofExpr (.unaryPostfix (.postfixPrimary (.paren (ts := [id' "T"])
      (primary_expr (var_primary (by decide) rfl))))))))
  exact .decl (ts := [kw .kChar]) (ts' := [id' "T", .punct .assign, kw .kSizeof, lp, id' "T", rp]) (word_specs .char)
    (ok_of (by simp) rfl) (fun h => by simp at h) (.one (.init (ts := [id' "T"]) (v := .name (some "T"))
      ⟨name_dtor (by decide), fun h => by cases h⟩ (fun h => by cases h) ⟨he, fun h => by cases h⟩))

/-- C74 fails: names declared in a `for` statement stay in scope after it.  C17 has
`typedef int T; void f() { for (int T;;) ; T x; }`; kefir rejects it. -/
theorem C74_for_scope_false :
    ∃ ts xs, IsUnit .c17 ts xs ∧ translationUnit ts = .error := by
  refine ⟨[kw .kTypedef, kw .kInt, id' "T", semi] ++ ([kw .kVoid] ++ [id' "f", lp, rp] ++ [] ++ lbrace ::
    ([kw .kFor, lp, kw .kInt, id' "T", semi, semi, rp, semi] ++ ([id' "T", id' "x", semi] ++ [])) ++ [rbrace] ++ []),
    _, unit_c17 (.itemStmt (st := .for (.decl (.decl [tInt] [(.name (some "T"), none)])) none none (.expr none))
      (σ' := [[], [("f", false), ("T", true)]]) ?_ (.inl rfl) (.itemDecl (d := .decl [tName "T"] [(.name (some "x"), none)])
        (σ' := [[("x", false)], [("f", false), ("T", true)]]) ?_ .itemsNil)), by rfl⟩
  · have hd : Declaration .c17 [[], [("f", false), ("T", true)]] [kw .kInt, id' "T", semi]
        (.decl [tInt] [(.name (some "T"), none)]) [[("T", false)], [("f", false), ("T", true)]] :=
      .decl (ts := [kw .kInt]) (ts' := [id' "T"]) int_specs (ok_of (by simp) rfl) (fun h => by simp at h)
        (.one (.plain ⟨name_dtor (by decide), fun h => by cases h⟩ (fun h => by cases h)))
    exact .forDecl (tc := []) (tn := []) (ts := [semi]) hd .none .none (.expr (te := []) .none) (fun h => by cases h)
  · exact .decl (ts := [id' "T"]) (ts' := [id' "x"]) (name_specs (by decide) (by decide)) (ok_of (by simp) rfl)
      (fun h => by simp at h) (.one (.plain ⟨name_dtor (by decide), fun h => by cases h⟩ (fun h => by cases h)))

/-- C74 fails: C17 has `typedef int T; void f() { T: ; }`; kefir rejects labels with the name of a typedef in a block. -/
theorem C74_label_false : ∃ ts xs, IsUnit .c17 ts xs ∧ translationUnit ts = .error :=
  ⟨[kw .kTypedef, kw .kInt, id' "T", semi] ++ ([kw .kVoid] ++ [id' "f", lp, rp] ++ [] ++ lbrace ::
    ([id' "T", colon, semi] ++ []) ++ [rbrace] ++ []), _,
    unit_c17 (.itemStmt (.label (ts := [semi]) (.expr (te := []) .none)) (.inl rfl) .itemsNil), by rfl⟩

/-- C74 fails: the names of old-style parameters stay in scope.  C17 has `void f(T) int T; {} typedef int T;`; kefir
rejects it. -/
theorem C74_parameter_scope_false : ∃ ts xs, IsUnit .c17 ts xs ∧ translationUnit ts = .error := by
  refine ⟨([kw .kVoid] ++ ([id' "f"] ++ [lp, id' "T", rp]) ++ ([kw .kInt, id' "T", semi] ++ []) ++ lbrace :: [] ++ [rbrace]) ++
    ([kw .kTypedef, kw .kInt, id' "T", semi] ++ []),
    [.fn [tVoid] (.fn (.name (some "f")) (.ident "T" .nil) false) [.decl [tInt] [(.name (some "T"), none)]] [],
     .decl (.decl [.storage .typedef, tInt] [(.name (some "T"), none)])], ⟨by simp, [[("T", true), ("f", false)]], ?_⟩, by rfl⟩
  have hd : IsDecl .c17 .c17 (Scope.names [[]]) .dtor ([id' "f"] ++ [lp, id' "T", rp])
      (.fn (.name (some "f")) (.ident "T" .nil) false) :=
    .dtorDirect (.func (ps := (.ident "T" .nil, false)) (.name (.inr (by decide)))
      (.parensIdents (ids := ["T"]) (by simp) (by decide) (by decide)))
  have hk : Declaration .c17 [[("T", false), ("f", false)]] [kw .kInt, id' "T", semi]
      (.decl [tInt] [(.name (some "T"), none)]) [[("T", false), ("T", false), ("f", false)]] :=
    .decl (ts := [kw .kInt]) (ts' := [id' "T"]) int_specs (ok_of (by simp) rfl) (fun h => by simp at h)
      (.one (.plain ⟨name_dtor (by decide), fun h => by cases h⟩ (fun h => by cases h)))
  have ht : Declaration .c17 [[("f", false)]] [kw .kTypedef, kw .kInt, id' "T", semi]
      (.decl [.storage .typedef, tInt] [(.name (some "T"), none)]) [[("T", true), ("f", false)]] :=
    .decl (ts := [kw .kTypedef, kw .kInt]) (ts' := [id' "T"]) typedef_specs (ok_of (by simp) rfl) (fun h => by simp at h)
      (.one (.plain ⟨name_dtor (by decide), fun h => by cases h⟩ (fun h => by cases h)))
  exact .cons (.fn (D := .c17) void_specs (ok_of (by simp) rfl) hd (fun h => by simp at h) (.cons hk .nil) rfl .itemsNil rfl
    (fun h => by cases h) (fun h => by cases h)) (.cons (.decl ht) .nil)

end Kefir.UnitParser
