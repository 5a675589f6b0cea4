import Verif.Proofs.Data
/-!
# Properties of id/scope.go and id/id.go: C45, C46
-/
namespace D1

/-! ## C45 -/

/-- The nine named scopes in the order of id/scope.go. -/
def namedScopes : List Scope := [scopeEncrypt, scopeDecrypt, scopeUpdate, scopeDelete, scopeCreateToken,
  scopeGetTokenContents, scopeGetAccessGroups, scopeModifyAccessGroups, scopeIndex]

/-- C45: `Contains` is inclusion of bit sets. -/
theorem C45_contains_iff (s t : Scope) : s.contains t = true ↔ ∀ i : Fin 64, t.getLsbD i = true → s.getLsbD i = true := by
  simp only [Scope.contains, beq_iff_eq]
  constructor
  · intro h i ht
    rw [← h] at ht
    simp only [BitVec.getLsbD_and, Bool.and_eq_true] at ht
    exact ht.1
  · intro h
    apply BitVec.eq_of_getLsbD_eq
    intro i hi
    have := h ⟨i, hi⟩
    simp only [BitVec.getLsbD_and]
    cases ht : t.getLsbD i <;> simp_all

/-- C45: `Contains` is a partial order. -/
theorem C45_contains_order (s t u : Scope) : s.contains s = true ∧
    (s.contains t = true → t.contains u = true → s.contains u = true) ∧
    (s.contains t = true → t.contains s = true → s = t) := by
  simp only [C45_contains_iff]
  refine ⟨fun _ h => h, fun h1 h2 i hi => h1 i (h2 i hi), fun h1 h2 => ?_⟩
  apply BitVec.eq_of_getLsbD_eq
  intro i hi
  have a := h1 ⟨i, hi⟩
  have b := h2 ⟨i, hi⟩
  simp only at a b
  rw [Bool.eq_iff_iff]
  exact ⟨b, a⟩

/-- C45: `ScopeUnion` is the union of bit sets. -/
theorem C45_union_bits (l : List Scope) (i : Nat) : (scopeUnion l).getLsbD i = true ↔ ∃ s ∈ l, s.getLsbD i = true := by
  have h : ∀ (l : List Scope) (a : Scope), (l.foldl (fun r s => r ||| s) a).getLsbD i = true ↔
      a.getLsbD i = true ∨ ∃ s ∈ l, s.getLsbD i = true := by
    intro l
    induction l with
    | nil => simp
    | cons x l ih => intro a; rw [List.foldl_cons, ih]; simp [or_assoc]
  rw [scopeUnion, h]
  simp [scopeNone]

/-- C45: `ScopeUnion` is the least upper bound. -/
theorem C45_union_lub (l : List Scope) : (∀ s ∈ l, (scopeUnion l).contains s = true) ∧
    ∀ u : Scope, (∀ s ∈ l, u.contains s = true) → u.contains (scopeUnion l) = true := by
  simp only [C45_contains_iff, C45_union_bits]
  exact ⟨fun s hs i hi => ⟨s, hs, hi⟩, fun u h i ⟨s, hs, hi⟩ => h s hs i hi⟩

/-- C45: order and repetition do not matter to `ScopeUnion`. -/
theorem C45_union_set (l l' : List Scope) (h : ∀ s, s ∈ l ↔ s ∈ l') : scopeUnion l = scopeUnion l' := by
  apply BitVec.eq_of_getLsbD_eq
  intro i _
  rw [Bool.eq_iff_iff, C45_union_bits, C45_union_bits]
  simp [h]

/-- C45: the named scopes are the single bits 0 to 8, in order. -/
theorem C45_named (n : Fin 9) (i : Fin 64) : (namedScopes.getD n 0).getLsbD i = decide (i.val = n.val) := by
  revert n i; decide

/-- C45: they are distinct. -/
theorem C45_named_nodup : namedScopes.length = 9 ∧ namedScopes.Nodup := by decide

/-- C45: `ScopeAll` contains exactly the named scopes. -/
theorem C45_all : scopeAll = scopeUnion namedScopes ∧ ∀ s : Scope, scopeAll.contains s = true ↔
    ∀ i : Fin 64, s.getLsbD i = true → i.val < 9 := by
  refine ⟨by decide, fun s => ?_⟩
  rw [C45_contains_iff]
  have : ∀ i : Fin 64, scopeAll.getLsbD i = decide (i.val < 9) := by decide
  simp only [this, decide_eq_true_eq]

example : (scopeUnion [scopeUpdate, scopeEncrypt, scopeUpdate]).contains scopeUpdate = true ∧
    (scopeUnion [scopeUpdate, scopeEncrypt]).contains scopeDelete = false ∧ scopeAll ≠ scopeNone := by decide

/-! ## C46 -/

/-- C46: `GetIDs` is the caller's ID and its group IDs, each once. -/
theorem C46_getIDs (i : Identity) (x : GoString) : (x ∈ i.getIDs ↔ x = i.id ∨ ∃ g, (x, g) ∈ i.groups) ∧ i.getIDs.Nodup := by
  refine ⟨?_, foldl_setInsert_nodup _ (by simp)⟩
  rw [Identity.getIDs, mem_foldl_setInsert]
  simp

theorem lookupGroup_none (l : List (GoString × AccessGroup)) (x : GoString) :
    lookupGroup l x = none ↔ ∀ g, (x, g) ∉ l := by
  induction l with
  | nil => simp [lookupGroup]
  | cons y l ih =>
    obtain ⟨k, g⟩ := y
    by_cases h : k = x
    · subst h; simp only [lookupGroup, if_true, reduceCtorEq, false_iff]; exact fun h => h g (by simp)
    · simp [lookupGroup, h, ih, Ne.symm h]

theorem lookupGroup_some (l : List (GoString × AccessGroup)) (x : GoString) (g : AccessGroup)
    (hn : (l.map Prod.fst).Nodup) : lookupGroup l x = some g ↔ (x, g) ∈ l := by
  induction l with
  | nil => simp [lookupGroup]
  | cons y l ih =>
    obtain ⟨k, g'⟩ := y
    simp only [List.map_cons, List.nodup_cons] at hn
    by_cases h : k = x
    · subst h
      simp only [lookupGroup, if_true, Option.some.injEq, List.mem_cons, Prod.mk.injEq, true_and]
      constructor
      · intro e; exact .inl e.symm
      · rintro (e | e)
        · exact e.symm
        · exact absurd (List.mem_map_of_mem (f := Prod.fst) e) hn.1
    · simp [lookupGroup, h, ih hn.2, Ne.symm h]

/-- C46: `GetIDScope` on the caller's own ID, on a group ID and on anything else. -/
theorem C46_getIDScope (i : Identity) (hn : (i.groups.map Prod.fst).Nodup) :
    i.getIDScope i.id = i.scopes ∧
    (∀ x g, (x, g) ∈ i.groups → x ≠ i.id → i.getIDScope x = g.scopes) ∧
    (∀ x, x ∉ i.getIDs → i.getIDScope x = scopeNone) := by
  refine ⟨by simp [Identity.getIDScope], ?_, ?_⟩
  · intro x g h hx
    simp [Identity.getIDScope, hx, (lookupGroup_some i.groups x g hn).mpr h]
  · intro x hx
    rw [(C46_getIDs i x).1] at hx
    have h1 : x ≠ i.id := fun h => hx (.inl h)
    have h2 := (lookupGroup_none i.groups x).mpr (fun g hg => hx (.inr ⟨g, hg⟩))
    simp [Identity.getIDScope, h1, h2]

/-- A caller with a group of its own ID and another group. -/
example : let i : Identity := ⟨[1], 1, [([1], ⟨[1], 2⟩), ([2], ⟨[2], 4⟩)]⟩
    (i.groups.map Prod.fst).Nodup ∧ i.getIDScope [1] = 1 ∧ i.getIDScope [2] = 4 ∧ i.getIDScope [3] = 0 := by decide

end D1
