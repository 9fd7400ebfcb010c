import Verif.Model.Count
import Mathlib.Data.List.Perm.Basic
import Mathlib.Algebra.BigOperators.Group.List.Basic
import Mathlib.Algebra.Order.BigOperators.Group.List

/-! Properties C166 and C167. -/

namespace Decomon

private theorem count_nodes (l : List OpKind) (n : ℕ) :
    l.foldl (fun n op => if op = .input ∨ op = .lambda then n else n + 1) n = n + l.count .other := by
  induction l generalizing n with
  | nil => rfl
  | cons a l ih =>
    rw [List.foldl_cons, ih]
    cases a <;> simp <;> omega

private theorem count_depths (byDepth : List (ℕ × List OpKind)) (n : ℕ) :
    byDepth.foldl (fun n d => d.2.foldl (fun n op => if op = .input ∨ op = .lambda then n else n + 1) n) n =
      n + (byDepth.flatMap Prod.snd).count .other := by
  induction byDepth generalizing n with
  | nil => rfl
  | cons a l ih =>
    rw [List.foldl_cons, count_nodes, ih, List.flatMap_cons, List.count_append, Nat.add_assoc]

/-- C166: the complexity is the number of nodes of the model that are neither inputs nor `Lambda`.  Missing with respect to the full claim: the
layers inside nested models, refuted below. -/
theorem C166_count_partial (byDepth : List (ℕ × List OpKind)) : graphComplexity byDepth = (byDepth.flatMap Prod.snd).count .other := by
  rw [graphComplexity, count_depths, Nat.zero_add]

/-- C166: it does not depend on the depths given to the nodes, nor on the order in which depths and nodes are stored. -/
theorem C166_depths (d₁ d₂ : List (ℕ × List OpKind)) (h : (d₁.flatMap Prod.snd).Perm (d₂.flatMap Prod.snd)) :
    graphComplexity d₁ = graphComplexity d₂ := by
  rw [C166_count_partial, C166_count_partial, h.count_eq]

/-- C166: a chain of `n` layers after an input has the complexity `n`, and inputs or `Lambda` nodes added to any model do not change it. -/
theorem C166_chain (n : ℕ) (k : ℕ) (byDepth : List (ℕ × List OpKind)) :
    graphComplexity ((n, [.input]) :: (List.range n).map fun i => (n - 1 - i, [.other])) = n ∧
    graphComplexity ((k, [.input, .lambda]) :: byDepth) = graphComplexity byDepth := by
  simp only [C166_count_partial, List.flatMap_cons, List.count_append]
  refine ⟨?_, by simp⟩
  have : ∀ m : ℕ, (((List.range m).map fun i => (n - 1 - i, [OpKind.other])).flatMap Prod.snd).count .other = m := by
    intro m
    induction m with
    | zero => rfl
    | succ m ih => rw [List.range_succ, List.map_append, List.flatMap_append, List.count_append, ih]; simp
  rw [this]
  simp

/-- C166 is false if the complexity is to be that of the function computed: a model made of an input and a nested model has the complexity 1,
the `n` layers of the nested model alone `n`. -/
theorem C166_nested_refuted (n : ℕ) (hn : n ≠ 1) : graphComplexity [(1, [.input]), (0, [.other])] ≠
    graphComplexity ((n, [.input]) :: (List.range n).map fun i => (n - 1 - i, [.other])) := by
  rw [(C166_chain n 0 []).1]
  exact fun h => hn (by rw [← h]; decide)

/-- C166: five layers in a nested model count as one. -/
example : graphComplexity [(1, [.input]), (0, [.other])] = 1 ∧ (1 : ℕ) ≠ graphComplexity ((5, [.input]) :: (List.range 5).map fun i => (5 - 1 - i, [.other])) :=
  ⟨by decide, C166_nested_refuted 5 (by decide)⟩

/-- C166: two depths stored in any order: `[Input], [Dense, Lambda], [Add]`. -/
example : graphComplexity [(2, [.input]), (1, [.other, .lambda]), (0, [.other])] = 2 ∧
    graphComplexity [(2, [.input]), (1, [.other, .lambda]), (0, [.other])] = graphComplexity [(7, [.other]), (3, [.lambda, .other, .input])] :=
  ⟨by decide, C166_depths _ _ (by decide)⟩

/-- Specification: the tensors held by an argument or a result, in their order. -/
inductive Holds {τ : Type*} : Packed τ → List τ → Prop
  | tensor (t : τ) : Holds (.tensor t) [t]
  | list (l : List τ) : Holds (.list l) l
  | tuple (l : List τ) : Holds (.tuple l) l

/-- C167: packing the inputs of a layer neither loses, adds nor moves a tensor. -/
theorem C167_prepare {τ : Type*} (p : Packed τ) (l : List τ) : Holds (prepareInputs p) l ↔ Holds p l := by
  have aux : ∀ (q : Packed τ) (l : List τ), Holds q l ↔ wrapOutputs q = l := by
    intro q l
    constructor
    · rintro (_ | _ | _) <;> rfl
    · rintro rfl
      cases q <;> constructor
  rw [aux, aux]
  unfold prepareInputs
  split <;> rfl

/-- C167: the list of outputs of a layer holds the tensors it gave, and no others. -/
theorem C167_wrap {τ : Type*} (p : Packed τ) (l : List τ) : Holds p l ↔ wrapOutputs p = l := by
  constructor
  · rintro (_ | _ | _) <;> rfl
  · rintro rfl
    cases p <;> constructor

/-- C167: a layer is called on a bare tensor exactly if there is one tensor; otherwise on what was given, and the outputs of a layer passed to
the next one arrive as a list of several tensors or as the single one. -/
theorem C167_single {τ : Type*} (p : Packed τ) (t : τ) :
    (prepareInputs p = .tensor t ↔ Holds p [t]) ∧ ((∀ t, ¬ Holds p [t]) → prepareInputs p = p) ∧
    (Holds p [t] → prepareInputs (.list (wrapOutputs p)) = .tensor t) ∧
    (∀ l, Holds p l → l.length ≠ 1 → prepareInputs (.list (wrapOutputs p)) = .list l) := by
  have h1 : prepareInputs p = .tensor t ↔ Holds p [t] := by
    constructor
    · intro h
      rw [← C167_prepare, h]
      exact .tensor t
    · intro h
      cases h <;> rfl
  refine ⟨h1, ?_, ?_, ?_⟩
  · intro h
    unfold prepareInputs
    split
    · exact absurd (Holds.list _) (h _)
    · exact absurd (Holds.tuple _) (h _)
    · rfl
  · intro h
    rw [(C167_wrap p _).1 h]
    rfl
  · intro l h hl
    rw [(C167_wrap p _).1 h]
    match l, hl with
    | [], _ => rfl
    | [a], hl => exact absurd rfl hl
    | a :: b :: l, _ => rfl

/-- C167: a tuple of one tensor is given to the next layer as the tensor, a tuple of two as a list of two. -/
example : prepareInputs (.tuple ["x"]) = .tensor "x" ∧ prepareInputs (.list (wrapOutputs (.tuple ["x", "y"]))) = .list ["x", "y"] ∧
    Holds (prepareInputs (.tuple ["x", "y"])) ["x", "y"] ∧ wrapOutputs (.tuple ["x", "y"]) = ["x", "y"] :=
  ⟨(C167_single _ _).1.2 (.tuple _), (C167_single (.tuple ["x", "y"]) "x").2.2.2 _ (.tuple _) (by decide), (C167_prepare _ _).2 (.tuple _),
    (C167_wrap _ _).1 (.tuple _)⟩

end Decomon
