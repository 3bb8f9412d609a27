import Verif.Tags.Spec

/-
The analysis of structure, union and enumeration specifiers and of tags in Kefir.

Simplifications:
* The flat scopes (`hashtree`s) are finite maps and the block scopes a stack of them; that the containers
  behave like that is C01 – C08 and C30.  The outermost scope stands for the file scope.
* Members and objects are declared as pointers to the type of their specifier, `spec *name;`.  Members of
  other types, bit-fields, static assertions, alignments, qualifiers and anonymous members are left out.
* A type carries the position of the definition that built it; enumerators are left out here (C90).
* The declaration of an object is refused if the scope already declares it.
-/
namespace Verif.Tags

/-- A structure, union or enumerated type.  `structure_type.complete`, `structure_type.identifier`,
`structure_type.fields` (include/kefir/ast/type/struct.h), `enumeration_type.complete`. -/
inductive Ty
  | mk (kind : Kind) (tag : Option String) (body : Option (Nat × List (String × Ty)))

def Ty.kind : Ty → Kind
  | .mk k _ _ => k

def Ty.tag : Ty → Option String
  | .mk _ t _ => t

def Ty.body : Ty → Option (Nat × List (String × Ty))
  | .mk _ _ b => b

/-- The contexts: the tag scope and the ordinary scope. -/
structure Ctx where
  cur : Frame Ty Ty
  outer : List (Frame Ty Ty)

def Ctx.empty : Ctx := ⟨.empty, []⟩

/-- source/ast/local_context.c:435-451 `kefir_ast_local_context_resolve_scoped_tag_identifier`,
source/ast/scope.c:309-332 `kefir_ast_identifier_block_scope_at`. -/
def Ctx.resolveTag (c : Ctx) (t : String) : Option Ty := (c.cur :: c.outer).findSome? (·.tags t)

/-- source/ast/local_context.c:416-433 `kefir_ast_local_context_resolve_scoped_ordinary_identifier`. -/
def Ctx.resolveObj (c : Ctx) (x : String) : Option Ty := (c.cur :: c.outer).findSome? (·.objs x)

/-- source/ast/context_impl.c:149-176 `kefir_ast_context_update_existing_scoped_type_tag`. -/
def updateTag (old new : Ty) : Option Ty :=
  if old.kind ≠ new.kind then none
  else if new.body.isSome then
    if old.body.isSome then none else some new
  else some old

/-- source/ast/local_context.c:958-993 `kefir_ast_local_context_define_tag`,
source/ast/global_context.c:848-882 `kefir_ast_global_context_define_tag`,
source/ast/context_impl.c:129-147 `kefir_ast_context_type_retrieve_tag`. -/
def Ctx.defineTag (c : Ctx) (ty : Ty) : Option Ctx :=
  match ty.tag with
  | none => none
  | some t =>
    match c.cur.tags t with
    | some old =>
      match updateTag old ty with
      | none => none
      | some ty' => some { c with cur := { c.cur with tags := c.cur.tags.set t ty' } }
    | none => some { c with cur := { c.cur with tags := c.cur.tags.set t ty } }

/-- source/ast/analyzer/declarator.c:214-219, 291-296: the tag of a definition. -/
def Ctx.defineOpt (c : Ctx) (ty : Ty) : Option (Ctx × Ty) :=
  match ty.tag with
  | none => some (c, ty)
  | some _ => (c.defineTag ty).map fun c => (c, ty)

/-- source/ast/analyzer/declarator.c:189-219 (structures and unions), 270-296 (enumerations): a
specifier without a body. -/
def Ctx.refer (c : Ctx) (k : Kind) (t : String) : Option (Ctx × Ty) :=
  match c.resolveTag t with
  | some ty => if ty.kind = k then some (c, ty) else none
  | none => (c.defineTag (.mk k (some t) none)).map fun c => (c, .mk k (some t) none)

mutual
/-- source/ast/analyzer/declarator.c:165-220 `resolve_struct_type`, 222-297 `resolve_enum_type`. -/
def Spec.analyze (c : Ctx) : Spec → Option (Ctx × Ty)
  | .ref k t => c.refer k t
  | .define u t pos body => do
    let (c, fields) ← body.analyze c []
    c.defineOpt (.mk (kindOf u) t (some (pos, fields)))
  | .enumerate t pos => c.defineOpt (.mk .enum t (some (pos, [])))
/-- source/ast/analyzer/declarator.c:49-163 `process_struct_declaration_entry`, source/ast/type/struct.c:371-426
`kefir_ast_struct_type_field_impl`: a field whose name is taken is refused. -/
def Members.analyze (c : Ctx) (fields : List (String × Ty)) : Members → Option (Ctx × List (String × Ty))
  | .nil => some (c, fields)
  | .cons m sp rest => do
    let (c, ty) ← sp.analyze c
    if fields.any (·.1 == m) then none
    else rest.analyze c (fields ++ [(m, ty)])
end

/-- source/ast/type_completion.c:30-46 `resolve_named_structure`, 96-110 (the case of structures and unions of
`kefir_ast_type_completion`). -/
def Ctx.completion (c : Ctx) (ty : Ty) : Ty :=
  match ty.kind, ty.body, ty.tag with
  | .enum, _, _ => ty
  | _, some _, _ => ty
  | _, none, none => ty
  | _, none, some t =>
    match c.resolveTag t with
    | none => ty
    | some found => if found.kind ≠ .enum ∧ found.body.isSome then found else ty

/-- source/ast/analyzer/nodes/struct_member.c:30-90 `kefir_ast_analyze_struct_member_node`, along a path of
`->`; source/ast/type/struct.c:442-469 `kefir_ast_struct_type_resolve_field`.  The result are the types that are
recorded for the structures on the left of the arrows (`node->structure->properties.type`): the one of the
identifier is the declared one (source/ast/analyzer/nodes/identifier.c:37-42), the ones of members are completed
(lines 74-75). -/
def Ctx.reach (c : Ctx) : Ty → List String → Option (List Ty)
  | ty, path =>
    if ty.kind = .enum then none
    else
      match (c.completion ty).kind, (c.completion ty).body with
      | .enum, _ => none
      | _, none => none
      | _, some (_, fields) =>
        match path with
        | [] => some [ty]
        | m :: rest =>
          match fields.find? (·.1 == m) with
          | none => none
          | some (_, ty') => (c.reach (c.completion ty') rest).map (ty :: ·)

/-- source/ast/analyzer/nodes/declaration.c:30-60 `kefir_ast_analyze_declaration_node`. -/
def Decl.analyze (c : Ctx) : Decl → Option Ctx
  | .alone sp => (sp.analyze c).map (·.1)
  | .object x sp => do
    let (c, ty) ← sp.analyze c
    match c.cur.objs x with
    | some _ => none
    | none => some { c with cur := { c.cur with objs := c.cur.objs.set x ty } }

/-- source/ast/local_context.c:453-461 `kefir_ast_local_context_push_block_scope`. -/
def Ctx.push (c : Ctx) : Ctx := { c with cur := .empty, outer := c.cur :: c.outer }

/-- source/ast/local_context.c:463-470 `kefir_ast_local_context_pop_block_scope`. -/
def Ctx.pop (c : Ctx) : Option Ctx :=
  match c.outer with
  | [] => none
  | f :: rest => some { c with cur := f, outer := rest }

/-- source/ast/analyzer/nodes/compound_statement.c:31-62 `kefir_ast_analyze_compound_statement_node`.  The result
has the types recorded at the arrows. -/
def Body.analyze (c : Ctx) : Body → Option (Ctx × List Ty)
  | .nil => some (c, [])
  | .decl d rest => do
    let c ← d.analyze c
    rest.analyze c
  | .access x path rest => do
    let ty ← c.resolveObj x
    let tys ← c.reach ty path
    let (c, tys') ← rest.analyze c
    some (c, tys ++ tys')
  | .block inner rest => do
    let (c, tys) ← inner.analyze c.push
    let c ← c.pop
    let (c, tys') ← rest.analyze c
    some (c, tys ++ tys')

/-- A function after the analysis: the outermost scope of its local context (the blocks have been left) and the
types recorded at its arrows. -/
abbrev Fn := Frame Ty Ty × List Ty

/-- source/ast/analyzer/nodes/function_definition.c:175-328 (lines 295-303): the items of the body are analysed in the
outermost scope of the local context of the function. -/
def Ext.analyze (c : Ctx) : Ext → Option (Ctx × List Fn)
  | .decl d => (d.analyze c).map (·, [])
  | .function body => do
    let (c, tys) ← body.analyze c.push
    let root := c.cur
    let c ← c.pop
    some (c, [(root, tys)])

/-- source/ast/analyzer/nodes/translation_unit.c: the external declarations one after another. -/
def analyzeUnit (c : Ctx) : List Ext → Option (Ctx × List Fn)
  | [] => some (c, [])
  | x :: xs => do
    let (c, fs) ← x.analyze c
    let (c, fs') ← analyzeUnit c xs
    some (c, fs ++ fs')

/-- source/ast-translator/lvalue.c:179-220 `kefir_ast_translate_struct_member_lvalue` (lines 188-197): the type
recorded at an arrow is completed once more, in the context of the function. -/
def translateArrow (c : Ctx) (ty : Ty) : Option Nat :=
  if (c.completion ty).kind = .enum then none
  else (c.completion ty).body.map (·.1)

/-- source/ast-translator/function_translator.c:143-209 `kefir_ast_translator_function_context_init`, 266-396
`kefir_ast_translator_function_context_translate`: a function is translated in its local context, when
the whole translation unit has been analysed. -/
def translateFn (c : Ctx) (f : Fn) : Option (List Nat) :=
  f.2.mapM (translateArrow { cur := f.1, outer := c.cur :: c.outer })

/-- The analysis of a translation unit and its translation: the definitions whose layouts are used at the
arrows, in order. -/
def compile (xs : List Ext) : Option (List Nat) := do
  let (c, fs) ← analyzeUnit .empty xs
  let oss ← fs.mapM (translateFn c)
  some oss.flatten

end Verif.Tags
