import Verif.Spec.Package
/-! # Checking conditions on all nodes of a concrete tree (for the examples) -/
namespace Verif
open Spec

mutual
/-- `P` holds of every node of the tree. -/
def allNodes (P : Node → Bool) : Node → Bool
  | .ident i => P (.ident i)
  | .selector x s => P (.selector x s) && allNodes P x
  | .star x => P (.star x) && allNodes P x
  | .paren x => P (.paren x) && allNodes P x
  | .index x is => P (.index x is) && allNodes P x && allNodesList P is
  | .unary x => P (.unary x) && allNodes P x
  | .arrayT len elt => P (.arrayT len elt) && allNodesList P len && allNodes P elt
  | .mapT k v => P (.mapT k v) && allNodes P k && allNodes P v
  | .chanT v => P (.chanT v) && allNodes P v
  | .funcT tps ps rs => P (.funcT tps ps rs) && allNodesList P tps && allNodesList P ps && allNodesList P rs
  | .structT fs => P (.structT fs) && allNodesList P fs
  | .ifaceT ms => P (.ifaceT ms) && allNodesList P ms
  | .field pos names typ d c => P (.field pos names typ d c) && allNodes P typ
  | .block ss => P (.block ss) && allNodesList P ss
  | .importSpec u name p => P (.importSpec u name p)
  | .typeSpec name tps typ d => P (.typeSpec name tps typ d) && allNodesList P tps && allNodes P typ
  | .valueSpec pos names typ values d c => P (.valueSpec pos names typ values d c) && allNodesList P typ && allNodesList P values
  | .genDecl tok specs doc => P (.genDecl tok specs doc) && allNodesList P specs
  | .funcDecl recv name typ body a b d => P (.funcDecl recv name typ body a b d) && allNodesList P recv && allNodes P typ && allNodesList P body
  | .badDecl => P .badDecl
  | .file name decls => P (.file name decls) && allNodesList P decls
  | .other cs => P (.other cs) && allNodesList P cs
def allNodesList (P : Node → Bool) : List Node → Bool
  | [] => true
  | n :: ns => allNodes P n && allNodesList P ns
end

theorem allNodesList_mem {P : Node → Bool} {ns : List Node} (h : allNodesList P ns = true) : ∀ n ∈ ns, allNodes P n = true := by
  induction ns with
  | nil => simp
  | cons n ns ih =>
    rw [allNodesList, Bool.and_eq_true] at h
    intro m hm
    rcases List.mem_cons.1 hm with rfl | hm
    · exact h.1
    · exact ih h.2 m hm

theorem allNodes_self {P : Node → Bool} {n : Node} (h : allNodes P n = true) : P n = true := by
  cases n <;> simp_all [allNodes]

theorem allNodesList_append {P : Node → Bool} (a b : List Node) : allNodesList P (a ++ b) = (allNodesList P a && allNodesList P b) := by
  induction a with
  | nil => rfl
  | cons n a ih => rw [List.cons_append, allNodesList, allNodesList, ih, Bool.and_assoc]

theorem allNodes_child {P : Node → Bool} {n : Node} (h : allNodes P n = true) : ∀ c ∈ children n, allNodes P c = true := by
  refine allNodesList_mem ?_
  cases n <;> simp_all [allNodes, children, allNodesList, allNodesList_append]

/-- The condition of `Parsed` on one node. -/
def parsedNode : Node → Bool
  | .structT fs => fs.all fun f => match f with | .field .. => true | _ => false
  | .ifaceT fs => fs.all fun f => match f with | .field .. => true | _ => false
  | .valueSpec _ _ typ _ _ _ => typ.length ≤ 1
  | _ => true

theorem parsedTree (n : Node) (h : allNodes parsedNode n = true) : Parsed n := by
  induction n using nodeInduction with
  | h n ih =>
    refine .mk (fun c hc => ih c hc (allNodes_child h c hc)) ?_ ?_
    · intro f hf
      have := allNodes_self h
      cases hf with
      | struct hm =>
        simp only [parsedNode, List.all_eq_true] at this
        have := this f hm
        cases f <;> simp_all
      | iface hm =>
        simp only [parsedNode, List.all_eq_true] at this
        have := this f hm
        cases f <;> simp_all
    · rintro pos names typ vs d c rfl
      simpa [parsedNode] using allNodes_self h

/-- The condition of `HandledTypes` on one node. -/
def handledNode : Node → Bool
  | .valueSpec _ names typ _ _ _ => names.isEmpty || handledSpec typ
  | _ => true

theorem handledTree (n : Node) (h : allNodes handledNode n = true) : HandledTypes n := by
  induction n using nodeInduction with
  | h n ih =>
    refine .mk (fun c hc => ih c hc (allNodes_child h c hc)) ?_
    rintro pos names t ts vs d c rfl hne
    have := allNodes_self h
    simp only [handledNode, Bool.or_eq_true, List.isEmpty_iff, hne, false_or] at this
    cases t <;> simp [handledSpec, isHandledType] at this <;> first | exact .inl (by constructor) | exact .inr (by constructor)

theorem single_split {α} {a s : α} {pre post : List α} (h : [a] = pre ++ s :: post) : pre = [] ∧ s = a ∧ post = [] := by
  cases pre with
  | nil => simp only [List.nil_append, List.cons.injEq] at h; exact ⟨rfl, h.1.symm, h.2.symm⟩
  | cons b pre => simp at h

end Verif
