import Verif.Props.Renaming
import Verif.Props.ProgramTypesSample
/-!
# The program of `ProgramSample`, delivered at other addresses, meets the hypotheses of C94

In the second delivery `b.go` comes first in the file set, and objects and identifiers have other addresses.
-/
namespace Verif.ProgramSample
open Verif Spec Index IndexSample Program Loader.Spec

/-- Change places with the neighbour. -/
def flip (n : Nat) : Nat := if n % 2 = 0 then n + 1 else n - 1
/-- The second hundred bytes of the file set come first. -/
def swapFiles (n : Nat) : Nat := if n < 100 then n + 100 else if n < 200 then n - 100 else n
def swapTwo (n : Nat) : Nat := if n = 0 then 1 else if n = 1 then 0 else n

theorem flip_flip (n : Nat) : flip (flip n) = n := by unfold flip; split <;> split <;> omega
theorem swapFiles_swapFiles (n : Nat) : swapFiles (swapFiles n) = n := by
  unfold swapFiles; repeat' split
  all_goals omega
theorem swapTwo_swapTwo (n : Nat) : swapTwo (swapTwo n) = n := by
  unfold swapTwo; repeat' split
  all_goals omega

def moved : Renaming where
  pos := swapFiles
  ident := flip
  obj := flip
  file := swapTwo
  pos_inj := fun a b h => by rw [← swapFiles_swapFiles a, h, swapFiles_swapFiles]
  ident_inj := fun a b h => by rw [← flip_flip a, h, flip_flip]
  obj_inj := fun a b h => by rw [← flip_flip a, h, flip_flip]
  file_inj := fun a b h => by rw [← swapTwo_swapTwo a, h, swapTwo_swapTwo]

theorem ident_back (i : Ident) : renIdent moved (renIdent moved i) = i := by
  simp [renIdent, moved, flip_flip, swapFiles_swapFiles]

theorem idents_back (is : List Ident) : (is.map (renIdent moved)).map (renIdent moved) = is := by
  rw [List.map_map]
  conv => rhs; rw [← List.map_id is]
  exact List.map_congr_left fun i _ => ident_back i

theorem name_back (i : Option Ident) : (i.map (renIdent moved)).map (renIdent moved) = i := by
  cases i <;> simp [ident_back]

theorem pos_back (p : Nat) : moved.pos (moved.pos p) = p := swapFiles_swapFiles p
theorem uid_back (p : Nat) : moved.ident (moved.ident p) = p := flip_flip p

mutual
theorem node_back : ∀ n : Node, renNode moved (renNode moved n) = n
  | .ident i => by simp only [renNode, ident_back]
  | .selector x sel => by simp only [renNode, ident_back, node_back x]
  | .star x => by simp only [renNode, node_back x]
  | .paren x => by simp only [renNode, node_back x]
  | .index x is => by simp only [renNode, node_back x, nodes_back is]
  | .unary x => by simp only [renNode, node_back x]
  | .arrayT len elt => by simp only [renNode, node_back elt, nodes_back len]
  | .mapT k v => by simp only [renNode, node_back k, node_back v]
  | .chanT v => by simp only [renNode, node_back v]
  | .funcT tps ps rs => by simp only [renNode, nodes_back tps, nodes_back ps, nodes_back rs]
  | .structT fs => by simp only [renNode, nodes_back fs]
  | .ifaceT ms => by simp only [renNode, nodes_back ms]
  | .field pos names typ doc comment => by simp only [renNode, idents_back, node_back typ, pos_back]
  | .block ss => by simp only [renNode, nodes_back ss]
  | .importSpec uid name pathPos => by simp only [renNode, uid_back, name_back, pos_back]
  | .typeSpec name tps typ doc => by simp only [renNode, ident_back, nodes_back tps, node_back typ]
  | .valueSpec pos names typ values doc comment => by
    simp only [renNode, idents_back, nodes_back typ, nodes_back values, pos_back]
  | .genDecl tok specs doc => by simp only [renNode, nodes_back specs]
  | .funcDecl recv name typ body pos endPos doc => by
    simp only [renNode, ident_back, nodes_back recv, nodes_back body, node_back typ, pos_back]
  | .badDecl => rfl
  | .file name decls => by simp only [renNode, ident_back, nodes_back decls]
  | .other cs => by simp only [renNode, nodes_back cs]

theorem nodes_back : ∀ ns : List Node, renNodes moved (renNodes moved ns) = ns
  | [] => rfl
  | n :: ns => by simp only [renNodes, node_back n, nodes_back ns]
end

theorem class_back (c : ObjClass) : renClass moved (renClass moved c) = c := by
  have under : ∀ u, renUnder moved (renUnder moved u) = u := by
    intro u
    cases u <;> simp [renUnder, moved, List.map_map, Function.comp_def, flip_flip]
  cases c <;> try rfl
  rename_i t
  cases t <;> simp [renClass, under]

theorem obj_back (o : Obj) : renObj moved (renObj moved o) = o := by
  have data : ∀ d : ObjData, renData moved (renData moved d) = d := by
    intro d
    simp only [renData, class_back, pos_back, show ∀ n, moved.obj (moved.obj n) = n from flip_flip]
  simp only [renObj, data]

/-- The package at the new addresses. -/
def movedPackage (p : Package) : Package :=
  { env := { pkgPath := p.env.pkgPath, module := p.env.module
             defs := fun u => (p.env.defs (moved.ident u)).map (renObj moved)
             uses := fun u => (p.env.uses (moved.ident u)).map (renObj moved)
             anonKey := fun n => p.env.anonKey (renNode moved n)
             signature := fun o => p.env.signature (renObj moved o)
             position := fun q => p.env.position (moved.pos q) }
    name := p.name, files := p.files.map (renFile moved), implicits := p.implicits.map (renObj moved)
    pkgNameOf := fun u => p.pkgNameOf (moved.ident u), imports := p.imports
    defs := p.defs.map fun ds => ds.map fun t => t.map (renTypeDef moved)
    scope := p.scope.map fun ds => ds.map fun t => t.map (renTypeDef moved) }

theorem movedPackage_ok (p : Package) (h : ∀ f ∈ p.files, MovedAsWhole moved f) : RenamedPackage moved p (movedPackage p) where
  env :=
    { pkgPath := rfl, module := rfl
      defs := fun u => by simp only [movedPackage, uid_back]
      uses := fun u => by simp only [movedPackage, uid_back]
      anonKey := fun n => by simp only [movedPackage, node_back]
      signature := fun o => by simp only [movedPackage, obj_back]
      position := fun q => by simp only [movedPackage, pos_back] }
  name := rfl
  files := rfl
  moved := h
  implicits := rfl
  pkgNameOf := fun u => by simp only [movedPackage, uid_back]
  imports := rfl
  defs := rfl
  scope := rfl

def movedDelivered : Delivered := ⟨fun i => movedPackage (package i), info, imports, [0]⟩
def movedDeps : Deps :=
  { deps with objectString := fun o => deps.objectString (renObj moved o), fileOf := fun q => (deps.fileOf (moved.pos q)).map moved.file }
def movedAnswer : Query → Except Str Delivered :=
  fun q => if q = ⟨go!"/w/m", true, [go!"./..."]⟩ then .ok movedDelivered else .error go!"no packages"

theorem fileA_moved : MovedAsWhole moved fileA := by
  refine ⟨0, 100, 99, fun k hk => ?_, by decide +kernel⟩
  simp only [moved, swapFiles]
  rw [if_pos (by omega)]
  omega

theorem fileB_moved : MovedAsWhole moved fileB := by
  refine ⟨100, 0, 99, fun k hk => ?_, by decide +kernel⟩
  simp only [moved, swapFiles]
  rw [if_neg (by omega), if_pos (by omega)]
  omega

theorem renamed : RenamedProgram moved delivered movedDelivered where
  packages := by
    intro i
    apply movedPackage_ok
    intro f hf
    have : i = 0 := by
      by_contra h
      have : (package i).files = [] := by
        unfold package
        split <;> first | rfl | exact absurd rfl h
      rw [show delivered.package i = package i from rfl, this] at hf
      simp at hf
    subst this
    simp only [delivered, package, pkgP, List.mem_cons, List.not_mem_nil, or_false] at hf
    rcases hf with rfl | rfl
    · exact fileA_moved
    · exact fileB_moved
  info := rfl
  imports := rfl
  roots := rfl

theorem renamedDeps : RenamedDeps moved deps movedDeps where
  scopes := fun _ => rfl
  objectString := fun o => by simp only [movedDeps, obj_back]
  fileOf := fun q => by simp only [movedDeps, pos_back]
  ext := rfl
  escapePath := rfl
  toolVersion := rfl

theorem moved_graph : movedDelivered.graph = delivered.graph := seen_ren renamed

theorem moved_answer : movedAnswer ⟨options.moduleRoot, !options.skipTests,
    if options.packagePatterns = [] then [go!"./..."] else options.packagePatterns⟩ = .ok movedDelivered := by
  have : (⟨options.moduleRoot, !options.skipTests, if options.packagePatterns = [] then [go!"./..."] else options.packagePatterns⟩ : Query) =
      ⟨go!"/w/m", true, [go!"./..."]⟩ := by decide +kernel
  rw [this]
  exact if_pos rfl

def movedRun : Option Run := indexing movedDeps movedAnswer env order' 20 ord' options writer

/-- C94: the two runs write the same index. -/
example : ∃ r r', run = some r ∧ movedRun = some r' ∧ SameIndex r.messages r'.messages := by
  obtain ⟨r, hr, _⟩ := run_some
  obtain ⟨r', hr'⟩ : ∃ r', movedRun = some r' := Option.isSome_iff_exists.1 (by decide +kernel)
  exact ⟨r, r', hr, hr', (C94_same_index deps movedDeps answer movedAnswer env order order' 20 20 ord ord' options writer writer delivered
    movedDelivered objs renamed renamedDeps go_program moved_answer
    (moved_graph ▸ go_program'.order) alike typed signed named ord_ok ord'_ok (.inr absolute) dirs
    (fun _ _ => rfl) (fun _ _ => rfl) (by simp [env]) r r' hr hr').2.2⟩

/-- The numbers are other ones: the declaration of `F` is elsewhere. -/
example : (movedPackage pkgP).env.defs 0 = some (renObj moved FileSample.objF) ∧ (renObj moved FileSample.objF).self.pos ≠ FileSample.objF.self.pos := by
  decide +kernel

end Verif.ProgramSample
