import Verif.ExprType.Spec

/-! What is typed in a language is typed in every language with fewer demands. -/
namespace Kefir.ExprType
open Kefir.Types (Basic)
open Kefir.Compat Kefir.Compat.Spec

/-- The second language demands less. -/
structure Lang.Sub (L M : Lang) : Prop where
  std : M.std = true → L.std = true
  impl : M.impl = true → L.impl = true
  size : M.size = L.size

variable {L M : Lang} {Γ : Env}

theorem Lang.Sub.has (h : L.Sub M) {f : Feature} (hf : L.has f) : M.has f := by
  have h1 := h.std; have h2 := h.impl
  unfold Lang.has at *
  split at hf
  · rename_i hc; rw [if_pos hc]; cases hm : M.impl <;> simp_all
  · rename_i hc; rw [if_neg hc]; cases hm : M.std <;> simp_all

theorem Lang.Sub.rel (h : L.Sub M) {p q : Prop} (hp : (L.std = true → p) ∧ (L.impl = true → q)) :
    (M.std = true → p) ∧ (M.impl = true → q) := ⟨fun k => hp.1 (h.std k), fun k => hp.2 (h.impl k)⟩

theorem Lang.Sub.or (h : L.Sub M) {p : Prop} {f : Feature} (hp : p ∨ L.has f) : p ∨ M.has f :=
  hp.imp_right h.has

theorem Lang.Sub.conv (h : L.Sub M) {s t : Ty} (hc : Conv L s t) : Conv M s t := by
  cases hc with
  | array => exact .array
  | vaList k => exact .vaList k
  | function k => exact .function k
  | qualifiedArray k => exact .qualifiedArray (h.has k)
  | lostQualifiers k => exact .lostQualifiers (h.has k)
  | value k1 k2 => exact .value k1 k2

theorem Lang.Sub.null (h : L.Sub M) {e : Expr} {d : Desc} (hn : Null L Γ e d) : Null M Γ e d := by
  cases hn with
  | int a b c => exact .int a b c
  | void a b c d => exact .void a b (fun k => c (h.impl k)) d
  | constant k a b c => exact .constant (h.has k) a b c

theorem Lang.Sub.notNull (h : L.Sub M) {e : Expr} {d : Desc} (hn : NotNull L Γ e d) : NotNull M Γ e d := by
  refine ⟨fun k => ?_, fun k => hn.2 ⟨h.std k.1, h.impl k.2⟩⟩
  rw [h.size]; exact hn.1 (h.std k)

theorem Lang.Sub.evaluates (h : L.Sub M) {e : Expr} (hn : Evaluates L Γ e) : Evaluates M Γ e :=
  fun k => hn ⟨h.std k.1, h.impl k.2⟩

theorem Lang.Sub.voidAnd (h : L.Sub M) {a b : Ty} (hv : VoidAnd L a b) : VoidAnd M a b :=
  hv.imp (fun k => ⟨k.1, h.or k.2⟩) (fun k => ⟨k.1, h.or k.2⟩)

theorem Lang.Sub.assignable (h : L.Sub M) {t : Ty} {x : Operand} (ha : Assignable L Γ t x) : Assignable M Γ t x := by
  cases ha with
  | arith a b => exact .arith a b
  | record a b => exact .record a (h.rel b)
  | pointer a b c => exact .pointer a (h.rel b) c
  | void a b c => exact .void a (h.voidAnd b) c
  | null a b => exact .null (h.null a) (h.or b)
  | bool a => exact .bool a
  | integer k a b c => exact .integer (h.has k) a b c

theorem Lang.Sub.modifiable (h : L.Sub M) {d : Desc} (hm : Modifiable L Γ d) : Modifiable M Γ d :=
  ⟨hm.lvalue, hm.notConst, h.or hm.notArray, h.or hm.complete, h.or hm.members⟩

theorem Lang.Sub.steps (h : L.Sub M) {t : Ty} (hs : Steps L Γ t) : Steps M Γ t := by
  cases hs with
  | complete a b => exact .complete a b
  | late k a b => exact .late (h.has k) a b
  | function k a => exact .function (h.has k) a

theorem Lang.Sub.stepsAny (h : L.Sub M) {t : Ty} (hs : StepsAny L Γ t) : StepsAny M Γ t :=
  hs.imp h.steps h.has

theorem Lang.Sub.un (h : L.Sub M) {op : UnOp} {x : Operand} {t : Ty} (hu : UnRule L op x t) : UnRule M op x t := by
  cases hu with
  | integer a b c => exact .integer a b (h.rel c)
  | floating a b c => exact .floating a b c
  | lnot a => exact .lnot a

theorem Lang.Sub.bin (h : L.Sub M) {op : BinOp} {x y : Operand} {t : Ty} (hu : BinRule L Γ op x y t) :
    BinRule M Γ op x y t := by
  cases hu with
  | arith a b c d => exact .arith a b c (h.rel d)
  | integer a b c d => exact .integer a b c (h.rel d)
  | shift a b c d => exact .shift a b c (h.rel d)
  | pointerInt a b c d => exact .pointerInt a b (h.steps c) d
  | intPointer a b c => exact .intPointer a b (h.steps c)
  | difference a b c d e => exact .difference a b (h.steps c) (h.steps d) (h.rel e)
  | order a b c => exact .order a b c
  | orderPointers a b c d e => exact .orderPointers a b c (h.rel d) (h.or e)
  | equal a b c => exact .equal a b c
  | equalPointers a b c d => exact .equalPointers a b c (h.rel d)
  | equalVoid a b c d => exact .equalVoid a b c (h.voidAnd d)
  | equalNull a b c => exact .equalNull a b (h.null c)
  | nullEqual a b c => exact .nullEqual a (h.null b) c
  | equalInteger k a b c d => exact .equalInteger (h.has k) a b c d
  | integerEqual k a b c d => exact .integerEqual (h.has k) a b c d
  | logical a b c => exact .logical a b c

theorem Lang.Sub.assignOp (h : L.Sub M) {op : AssignOp} {s t : Ty} (hu : AssignOpRule L Γ op s t) :
    AssignOpRule M Γ op s t := by
  cases hu with
  | arith a b c => exact .arith a b c
  | integer a b c d e f => exact .integer a b c d e f
  | pointer a b c => exact .pointer a (h.steps b) c

theorem Lang.Sub.cast (h : L.Sub M) {s t : Ty} (hu : CastRule L s t) : CastRule M s t := by
  cases hu with
  | void => exact .void
  | qualifiedVoid k => exact .qualifiedVoid (h.has k)
  | arith a b => exact .arith a b
  | toPointer a b => exact .toPointer a b
  | fromPointer a b => exact .fromPointer a b
  | pointers a b => exact .pointers a b

theorem Lang.Sub.cond (h : L.Sub M) {x y : Operand} {t : Ty} (hu : CondRule L Γ x y t) : CondRule M Γ x y t := by
  cases hu with
  | arith a b c => exact .arith a b (h.rel c)
  | record a b c => exact .record a b (h.rel c)
  | void a b => exact .void a b
  | nullRight a b c => exact .nullRight a (h.evaluates b) (h.null c)
  | nullLeft a b c => exact .nullLeft (h.null a) b (h.evaluates c)
  | pointers a b c d e f g i => exact .pointers a b (h.notNull c) (h.notNull d) (h.rel e) f g (h.rel i)
  | voidPointer a b c d e => exact .voidPointer a b (h.notNull c) (h.notNull d) (h.voidAnd e)

theorem Lang.Sub.args (h : L.Sub M) {ps : TyList} {more : Bool} {xs : List Operand} (hu : ArgsRule L Γ ps more xs) :
    ArgsRule M Γ ps more xs := by
  induction hu with
  | done a b => exact .done (fun k x hx => h.or (a k x hx)) b
  | next a b _ ih => exact .next (h.rel a) (h.assignable b) ih

theorem Lang.Sub.call (h : L.Sub M) {ps : Params} {more : Bool} {xs : List Operand} (hu : CallRule L Γ ps more xs) :
    CallRule M Γ ps more xs := by
  cases hu with
  | types a => exact .types (h.args a)
  | noParameters => exact .noParameters
  | empty a => exact .empty fun x hx => h.or (a x hx)
  | ids a => exact .ids fun x hx => h.or (a x hx)

theorem Lang.Sub.isMember (h : L.Sub M) {fs : Fields} {x : String} {t : Ty} {w : Option Int}
    (hu : Member L fs x t w) : Member M fs x t w := by
  induction hu with
  | here => exact .here
  | later _ ih => exact .later ih
  | struct _ ih => exact .struct ih
  | union _ ih => exact .union ih
  | qualifiedStruct k _ ih => exact .qualifiedStruct (h.has k) ih
  | qualifiedUnion k _ ih => exact .qualifiedUnion (h.has k) ih

theorem Lang.Sub.member (h : L.Sub M) {fs : Fields} {x : String} {t : Ty} {w : Option Int}
    (hu : MemberRule L fs x t w) : MemberRule M fs x t w := by
  refine ⟨h.isMember hu.1, ?_⟩
  rw [h.size]; exact h.or hu.2

theorem Lang.Sub.memberType (h : L.Sub M) {q : Option Qual} {s t : Ty} (hu : MemberType L q s t) :
    MemberType M q s t := by
  cases hu with
  | unqualified => exact .unqualified
  | qualified a => exact .qualified a
  | array k a => exact .array (h.has k) a
  | lost k => exact .lost (h.has k)

theorem Lang.Sub.sizeRule (h : L.Sub M) {t : Ty} (hu : SizeRule L Γ t) : SizeRule M Γ t :=
  ⟨hu.1.imp_right fun k => ⟨k.1, h.has k.2⟩, hu.2⟩

theorem Lang.Sub.assocTypes (h : L.Sub M) {ts : List Ty} (hu : AssocTypes L Γ ts) : AssocTypes M Γ ts :=
  ⟨h.or hu.1, h.or hu.2⟩

theorem Lang.Sub.generic (h : L.Sub M) {c : Ty} {as : List (Ty × Desc)} {o : Option Desc} {d : Desc}
    (hu : GenericRule L c as o d) : GenericRule M c as o d := by
  cases hu with
  | matching pre a b c =>
    exact .matching pre (fun x hx => h.rel (a x hx)) (h.rel b) (c.imp (fun k x hx => h.rel (k x hx)) h.has)
  | default a => exact .default fun x hx => h.rel (a x hx)

mutual
theorem Lang.Sub.typed (h : L.Sub M) : ∀ (e : Expr) (d : Desc), Typed L Γ e d → Typed M Γ e d
  | .ident _, _, k => k
  | .const .., _, k => k
  | .str .., _, ⟨a, b, c, k, e⟩ => ⟨a, b, c, fun i => h.has (k i), e⟩
  | .un _ e, _, ⟨x, t, a, b, r, c, k⟩ => ⟨x, t, typed h e x a, h.conv b, r, h.un c, k⟩
  | .incdec _ e, _, ⟨x, a, b, c, k⟩ =>
    ⟨x, typed h e x a, h.modifiable b, c.imp_right (fun ⟨i, j, l⟩ => ⟨i, j, h.stepsAny l⟩), k⟩
  | .addr e, _, ⟨x, a, b⟩ => ⟨x, typed h e x a, b⟩
  | .deref e, _, ⟨x, a, b, c⟩ => ⟨x, typed h e x a, h.conv b, c⟩
  | .sizeofExpr e, _, ⟨x, a, b, c, k⟩ => ⟨x, typed h e x a, b, h.sizeRule c, by rw [h.size]; exact k⟩
  | .sizeofType _, _, ⟨a, k⟩ => ⟨h.sizeRule a, by rw [h.size]; exact k⟩
  | .alignofType _, _, ⟨a, k⟩ => ⟨h.sizeRule a, by rw [h.size]; exact k⟩
  | .bin _ e f, _, ⟨x, s, y, t, a, b, c, k, r, i, j⟩ =>
    ⟨x, s, y, t, typed h e x a, h.conv b, typed h f y c, h.conv k, r, h.bin i, j⟩
  | .assign e f, _, ⟨x, s, y, t, a, b, c, k, i, j, l⟩ =>
    ⟨x, s, y, t, typed h e x a, h.conv b, typed h f y c, h.conv k, h.modifiable i, h.assignable j, l⟩
  | .assignOp _ e f, _, ⟨x, s, y, t, a, b, c, k, i, j, l⟩ =>
    ⟨x, s, y, t, typed h e x a, h.conv b, typed h f y c, h.conv k, h.modifiable i, h.assignOp j, l⟩
  | .cast _ e, _, ⟨x, s, a, b, c, k⟩ => ⟨x, s, typed h e x a, h.conv b, h.cast c, k⟩
  | .cond e f g, _, ⟨z, r, x, s, y, t, a, b, c, k, i, j, l, u, m, n⟩ =>
    ⟨z, r, x, s, y, t, typed h e z a, h.conv b, c, typed h f x k, h.conv i, typed h g y j, h.conv l, u, h.cond m, n⟩
  | .comma e f, _, ⟨x, y, t, a, b, c, k⟩ => ⟨x, y, t, typed h e x a, typed h f y b, h.conv c, k⟩
  | .index e f, _, ⟨x, s, y, t, a, b, c, k, i, j, l⟩ =>
    ⟨x, s, y, t, typed h e x a, h.conv b, typed h f y c, h.conv k, i, h.stepsAny j, l⟩
  | .call e as, _, ⟨x, r, ps, m, xs, a, b, c, k, i, j, l⟩ =>
    ⟨x, r, ps, m, xs, typed h e x a, h.conv b, typedArgs h as xs c, h.call k,
      i.imp_right (fun k => ⟨k.1, h.has k.2⟩), j.imp_right (fun k => k.imp_right h.has), l⟩
  | .dot e _, _, ⟨x, fs, t, w, a, b, c, k, i, j, l, m, n⟩ =>
    ⟨x, fs, t, w, typed h e x a, b, h.member c, h.memberType k, i, fun o => h.or (j o),
      fun o => ⟨(l o).1, h.or (l o).2⟩, m, n⟩
  | .arrow e _, _, ⟨x, s, fs, t, w, a, b, c, k, i, j⟩ =>
    ⟨x, s, fs, t, w, typed h e x a, h.conv b, c, h.member k, h.memberType i, j⟩
  | .generic e as o, _, ⟨x, s, ds, r, a, b, c, k, i, d', j, l⟩ =>
    ⟨x, s, ds, r, typed h e x a, h.conv b, typedAssocs h as ds c, h.assocTypes k,
      i.elim (fun q => .inl (typedDflt h o r q)) (fun q => .inr ⟨h.has q.1, q.2⟩), d', h.generic j, l⟩
theorem Lang.Sub.typedArgs (h : L.Sub M) : ∀ (as : Args) (xs : List Operand), TypedArgs L Γ as xs → TypedArgs M Γ as xs
  | .nil, _, k => k
  | .cons e rest, _, ⟨x, t, ys, a, b, c, k⟩ => ⟨x, t, ys, typed h e x a, h.conv b, typedArgs h rest ys c, k⟩
theorem Lang.Sub.typedAssocs (h : L.Sub M) : ∀ (as : Assocs) (xs : List (Ty × Desc)), TypedAssocs L Γ as xs →
    TypedAssocs M Γ as xs
  | .nil, _, k => k
  | .cons _ e rest, _, ⟨x, ys, a, b, k⟩ => ⟨x, ys, typed h e x a, typedAssocs h rest ys b, k⟩
theorem Lang.Sub.typedDflt (h : L.Sub M) : ∀ (o : Dflt) (r : Option Desc), TypedDflt L Γ o r → TypedDflt M Γ o r
  | .none, _, k => k
  | .some e, _, ⟨x, a, k⟩ => ⟨x, typed h e x a, k⟩
end

theorem common_c17 : common.Sub (c17 .int) := ⟨fun _ => rfl, fun h => (nomatch h), rfl⟩
theorem common_kefir : common.Sub kefir := ⟨fun _ => rfl, fun _ => rfl, rfl⟩

end Kefir.ExprType
