import Verif.Model.Ast
/-!
# Specification: children of a syntax node

The children of a node in source order, without identifiers that are stored directly in the node (declared
names, selected names, labels).  This is the order of `ast.Walk` (go/ast).
-/
namespace Verif.Spec

def children : Node → List Node
  | .ident _ => []
  | .selector x _ => [x]
  | .star x => [x]
  | .paren x => [x]
  | .index x is => x :: is
  | .unary x => [x]
  | .arrayT len elt => len ++ [elt]
  | .mapT k v => [k, v]
  | .chanT v => [v]
  | .funcT tps ps rs => tps ++ (ps ++ rs)
  | .structT fs => fs
  | .ifaceT ms => ms
  | .field _ _ typ _ _ => [typ]
  | .block ss => ss
  | .importSpec _ _ _ => []
  | .typeSpec _ tps typ _ => tps ++ [typ]
  | .valueSpec _ _ typ values _ _ => typ ++ values
  | .genDecl _ specs _ => specs
  | .funcDecl recv _ typ body _ _ _ => recv ++ typ :: body
  | .badDecl => []
  | .file _ decls => decls
  | .other cs => cs

theorem sizeOf_children {n c : Node} (h : c ∈ children n) : sizeOf c < sizeOf n := by
  cases n <;> simp only [children, List.mem_append, List.mem_cons, List.not_mem_nil, or_false] at h
  case selector => subst h; simp; omega
  case star => subst h; simp
  case paren => subst h; simp
  case index =>
    rcases h with rfl | h
    · simp; omega
    · have := List.sizeOf_lt_of_mem h; simp; omega
  case unary => subst h; simp
  case arrayT =>
    rcases h with h | rfl
    · have := List.sizeOf_lt_of_mem h; simp; omega
    · simp; omega
  case mapT => rcases h with rfl | rfl <;> simp <;> omega
  case chanT => subst h; simp
  case funcT =>
    rcases h with h | h | h <;> (have := List.sizeOf_lt_of_mem h; simp; omega)
  case structT => have := List.sizeOf_lt_of_mem h; simp; omega
  case ifaceT => have := List.sizeOf_lt_of_mem h; simp; omega
  case field => subst h; simp; omega
  case block => have := List.sizeOf_lt_of_mem h; simp; omega
  case typeSpec =>
    rcases h with h | rfl
    · have := List.sizeOf_lt_of_mem h; simp; omega
    · simp; omega
  case valueSpec => rcases h with h | h <;> (have := List.sizeOf_lt_of_mem h; simp; omega)
  case genDecl => have := List.sizeOf_lt_of_mem h; simp; omega
  case funcDecl =>
    rcases h with h | rfl | h
    · have := List.sizeOf_lt_of_mem h; simp; omega
    · simp; omega
    · have := List.sizeOf_lt_of_mem h; simp; omega
  case file => have := List.sizeOf_lt_of_mem h; simp; omega
  case other => have := List.sizeOf_lt_of_mem h; simp; omega

/-- Induction over syntax trees by children. -/
theorem nodeInduction {P : Node → Prop} (h : ∀ n, (∀ c ∈ children n, P c) → P n) (n : Node) : P n :=
  h n (fun c _hc => nodeInduction h c)
termination_by sizeOf n
decreasing_by exact sizeOf_children _hc

end Verif.Spec
