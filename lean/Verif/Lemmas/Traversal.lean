import Verif.Spec.FileTraversal
/-! # Reading a file uses only the package -/
namespace Verif
open Spec

theorem packageQualifier_congr {env env' : FileEnv} (h : env.pkg.uses = env'.pkg.uses) (n : Node) :
    packageQualifier env n = packageQualifier env' n := by
  unfold packageQualifier; rw [h]

mutual

theorem traverse_congr {env env' : FileEnv} (h : env.pkg.uses = env'.pkg.uses) (known) : ∀ n : Node, traverse env known n = traverse env' known n
  | .importSpec .. => by simp only [traverse]
  | .selector x sel => by
    simp only [traverse]
    rw [packageQualifier_congr h, traverse_congr h known x]
  | .funcDecl recv name typ body pos endPos _ => by
    simp only [traverse]
    rw [traverseList_congr h known recv, traverse_congr h known typ, traverseList_congr h known body]
  | .file _ decls => by simp only [traverse]; rw [traverseList_congr h known decls]
  | .ident i => by simp only [traverse]
  | .star x => by simp only [traverse]; rw [traverse_congr h known x]
  | .paren x => by simp only [traverse]; rw [traverse_congr h known x]
  | .index x is => by simp only [traverse]; rw [traverse_congr h known x, traverseList_congr h known is]
  | .unary x => by simp only [traverse]; rw [traverse_congr h known x]
  | .arrayT len elt => by simp only [traverse]; rw [traverseList_congr h known len, traverse_congr h known elt]
  | .mapT k v => by simp only [traverse]; rw [traverse_congr h known k, traverse_congr h known v]
  | .chanT v => by simp only [traverse]; rw [traverse_congr h known v]
  | .funcT tps ps rs => by
    simp only [traverse]
    rw [traverseList_congr h known tps, traverseList_congr h known ps, traverseList_congr h known rs]
  | .structT fs => by simp only [traverse]; rw [traverseList_congr h known fs]
  | .ifaceT ms => by simp only [traverse]; rw [traverseList_congr h known ms]
  | .field _ names typ _ _ => by simp only [traverse]; rw [traverse_congr h known typ]
  | .block ss => by simp only [traverse]; rw [traverseList_congr h known ss]
  | .typeSpec name tps typ _ => by
    simp only [traverse]
    rw [traverseList_congr h known tps, traverse_congr h known typ]
  | .valueSpec _ names typ values _ _ => by
    simp only [traverse]
    rw [traverseList_congr h known typ, traverseList_congr h known values]
  | .genDecl _ specs _ => by simp only [traverse]; rw [traverseList_congr h known specs]
  | .badDecl => by simp only [traverse]
  | .other cs => by simp only [traverse]; rw [traverseList_congr h known cs]

theorem traverseList_congr {env env' : FileEnv} (h : env.pkg.uses = env'.pkg.uses) (known) :
    ∀ ns : List Node, traverseList env known ns = traverseList env' known ns
  | [] => by simp only [traverseList]
  | n :: ns => by simp only [traverseList]; rw [traverse_congr h known n, traverseList_congr h known ns]

end

/-! Only the imported packages that occur have to be known. -/

mutual

theorem traverse_known {env : FileEnv} {known known' : Str → Bool} (h : ∀ n i x imported, packageQualifier env n = some (i, x, imported) →
    known imported = known' imported) : ∀ n : Node, traverse env known n = traverse env known' n
  | .importSpec .. => by simp only [traverse]
  | .selector x sel => by
    simp only [traverse]
    rw [traverse_known h x]
    cases hq : packageQualifier env x with
    | none => rfl
    | some e => obtain ⟨i, o, imported⟩ := e; simp only [h x i o imported hq]
  | .funcDecl recv name typ body pos endPos _ => by
    simp only [traverse]
    rw [traverseList_known h recv, traverse_known h typ, traverseList_known h body]
  | .file _ decls => by simp only [traverse]; rw [traverseList_known h decls]
  | .ident i => by simp only [traverse]
  | .star x => by simp only [traverse]; rw [traverse_known h x]
  | .paren x => by simp only [traverse]; rw [traverse_known h x]
  | .index x is => by simp only [traverse]; rw [traverse_known h x, traverseList_known h is]
  | .unary x => by simp only [traverse]; rw [traverse_known h x]
  | .arrayT len elt => by simp only [traverse]; rw [traverseList_known h len, traverse_known h elt]
  | .mapT k v => by simp only [traverse]; rw [traverse_known h k, traverse_known h v]
  | .chanT v => by simp only [traverse]; rw [traverse_known h v]
  | .funcT tps ps rs => by
    simp only [traverse]
    rw [traverseList_known h tps, traverseList_known h ps, traverseList_known h rs]
  | .structT fs => by simp only [traverse]; rw [traverseList_known h fs]
  | .ifaceT ms => by simp only [traverse]; rw [traverseList_known h ms]
  | .field _ names typ _ _ => by simp only [traverse]; rw [traverse_known h typ]
  | .block ss => by simp only [traverse]; rw [traverseList_known h ss]
  | .typeSpec name tps typ _ => by
    simp only [traverse]
    rw [traverseList_known h tps, traverse_known h typ]
  | .valueSpec _ names typ values _ _ => by
    simp only [traverse]
    rw [traverseList_known h typ, traverseList_known h values]
  | .genDecl _ specs _ => by simp only [traverse]; rw [traverseList_known h specs]
  | .badDecl => by simp only [traverse]
  | .other cs => by simp only [traverse]; rw [traverseList_known h cs]

theorem traverseList_known {env : FileEnv} {known known' : Str → Bool} (h : ∀ n i x imported,
    packageQualifier env n = some (i, x, imported) → known imported = known' imported) :
    ∀ ns : List Node, traverseList env known ns = traverseList env known' ns
  | [] => by simp only [traverseList]
  | n :: ns => by simp only [traverseList]; rw [traverse_known h n, traverseList_known h ns]

end

/-! ## What is met depends only on what the qualifiers are -/

mutual

theorem traverse_env {env env' : FileEnv} {known : Str → Bool} (h : ∀ n, packageQualifier env' n = packageQualifier env n) : ∀ n : Node, traverse env' known n = traverse env known n
  | .importSpec .. => by simp only [traverse]
  | .selector x sel => by
    simp only [traverse]
    rw [traverse_env h x, h x]
  | .funcDecl recv name typ body pos endPos _ => by
    simp only [traverse]
    rw [traverseList_env h recv, traverse_env h typ, traverseList_env h body]
  | .file _ decls => by simp only [traverse]; rw [traverseList_env h decls]
  | .ident i => by simp only [traverse]
  | .star x => by simp only [traverse]; rw [traverse_env h x]
  | .paren x => by simp only [traverse]; rw [traverse_env h x]
  | .index x is => by simp only [traverse]; rw [traverse_env h x, traverseList_env h is]
  | .unary x => by simp only [traverse]; rw [traverse_env h x]
  | .arrayT len elt => by simp only [traverse]; rw [traverseList_env h len, traverse_env h elt]
  | .mapT k v => by simp only [traverse]; rw [traverse_env h k, traverse_env h v]
  | .chanT v => by simp only [traverse]; rw [traverse_env h v]
  | .funcT tps ps rs => by
    simp only [traverse]
    rw [traverseList_env h tps, traverseList_env h ps, traverseList_env h rs]
  | .structT fs => by simp only [traverse]; rw [traverseList_env h fs]
  | .ifaceT ms => by simp only [traverse]; rw [traverseList_env h ms]
  | .field _ names typ _ _ => by simp only [traverse]; rw [traverse_env h typ]
  | .block ss => by simp only [traverse]; rw [traverseList_env h ss]
  | .typeSpec name tps typ _ => by
    simp only [traverse]
    rw [traverseList_env h tps, traverse_env h typ]
  | .valueSpec _ names typ values _ _ => by
    simp only [traverse]
    rw [traverseList_env h typ, traverseList_env h values]
  | .genDecl _ specs _ => by simp only [traverse]; rw [traverseList_env h specs]
  | .badDecl => by simp only [traverse]
  | .other cs => by simp only [traverse]; rw [traverseList_env h cs]

theorem traverseList_env {env env' : FileEnv} {known : Str → Bool} (h : ∀ n, packageQualifier env' n = packageQualifier env n) :
    ∀ ns : List Node, traverseList env' known ns = traverseList env known ns
  | [] => by simp only [traverseList]
  | n :: ns => by simp only [traverseList]; rw [traverse_env h n, traverseList_env h ns]

end


end Verif
