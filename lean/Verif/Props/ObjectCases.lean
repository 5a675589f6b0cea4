import Verif.Props.Linear
import Verif.Props.Loud
/-!
# Concrete cases for C05 to C19

One object with contents `⟨[1], [2]⟩` and access list `[7], [8]` (`toyShared`); everybody holds all scopes.
-/
namespace D1
open Spec Prog

theorem run_ok_of {α : Type} {p : Prog α} {env : Env} {w : World} {a : α} (h : (p.run env w).1 = .ok a) :
    p.run env w = (.ok a, (p.run env w).2) := Prod.ext h rfl

/-- C05: `[8]` may read the object, and the record that was fetched lists it; `[9]` may not. -/
theorem C05_case : (∃ tr r, Yields (callProg toyPrims toyD1 (.decrypt [8] nilOid)) tr (.ok r) ∧
      Authorized toyPrims toyD1 [8] scopeDecrypt nilOid tr) ∧
    ((toyD1.decrypt toyPrims [9] nilOid).run toyEnv toyShared).1 = .err .notAuthorized := by
  refine ⟨?_, by decide +kernel⟩
  obtain ⟨tr, h⟩ := yields_of_steps (callProg toyPrims toyD1 (.decrypt [8] nilOid)) toyShared toyEnv
  have hk : succeeded ((callProg toyPrims toyD1 (.decrypt [8] nilOid)).run toyEnv toyShared).1 = true := by decide +kernel
  cases hr : ((callProg toyPrims toyD1 (.decrypt [8] nilOid)).run toyEnv toyShared).1 with
  | ok r =>
    rw [hr] at h
    exact ⟨tr, r, h, C05_authorized rfl h (.inl ⟨⟨r, rfl⟩, fun _ hd => nomatch hd⟩)⟩
  | err e => rw [hr] at hk; cases hk
  | panic => rw [hr] at hk; cases hk
  | diverge => rw [hr] at hk; cases hk

/-- C07: `Update`, cut off after its first write, did change something, but no record of another object. -/
theorem C07_case : ((callProg toyPrims toyD1 (.update [7] nilOid ⟨some [3], some [4]⟩)).runN toyEnv 6 toyShared).2.store nilOid.1 dtObject ≠
      toyShared.store nilOid.1 dtObject ∧
    ∀ id, id ≠ nilOid.1 → ∀ dt,
      ((callProg toyPrims toyD1 (.update [7] nilOid ⟨some [3], some [4]⟩)).runN toyEnv 6 toyShared).2.store id dt = toyShared.store id dt :=
  ⟨by decide +kernel, fun id h dt => C07_footprint (toyD1_reads _) _ _ _ id dt fun h' => h h'.1⟩

/-- C08: `[9]` deletes an object that is not there, and the one that is there stays. -/
theorem C08_case : ∃ w', (toyD1.delete toyPrims [9] ⟨List.replicate 16 5, rfl⟩).run toyEnv toyShared = (.ok (), w') ∧
    w'.store = toyShared.store ∧ w'.store nilOid.1 dtObject ≠ none := by
  obtain ⟨w', h1, h2⟩ := C08_absent (P := toyPrims) (d := toyD1) (oid := ⟨List.replicate 16 5, rfl⟩) (w := toyShared) (t := [9])
    toyEnv_noFault (toyD1_reads _) (i := ⟨[9], scopeAll, [([50], ⟨[50], scopeAll⟩)]⟩) rfl (by decide) (by decide +kernel)
  exact ⟨w', h1, h2, by rw [h2]; decide +kernel⟩

/-- The ID that `Encrypt` by `[7]` draws here. -/
def toyNew : Oid := freshOid toyD1 toyEnv toyShared [7]

/-- C09: `Encrypt`, cut off after its first write (six effects) leaves an object without access record; after seven, all of it. -/
theorem C09_case :
    toyShared.store toyNew.1 dtAccess = none ∧
    (((toyD1.encrypt toyPrims [7] ⟨some [3], some [4]⟩ [[8]]).runN toyEnv 6 toyShared).2.store toyNew.1 dtObject ≠ none ∧
      ((toyD1.encrypt toyPrims [7] ⟨some [3], some [4]⟩ [[8]]).runN toyEnv 6 toyShared).2.store toyNew.1 dtAccess = none) ∧
    EntryAt toyPrims toyD1 ((toyD1.encrypt toyPrims [7] ⟨some [3], some [4]⟩ [[8]]).runN toyEnv 7 toyShared).2.store toyNew
      ⟨⟨some [3], some [4]⟩, fun x => ([[8], [7]] : List GoString).any fun g => sanitize g == x⟩ := by
  have hn : toyShared.store toyNew.1 dtAccess = none := by decide +kernel
  refine ⟨hn, by decide +kernel, ?_⟩
  rcases (C09_interrupted (o := ⟨some [3], some [4]⟩) (gs := [[8]]) toyLaws (toyD1_reads _) hn 7 rfl).2 with ⟨h, _⟩ | ⟨i, wi, hi, h⟩
  · have : ((toyD1.encrypt toyPrims [7] ⟨some [3], some [4]⟩ [[8]]).runN toyEnv 7 toyShared).2.store toyNew.1 dtAccess ≠ none := by
      decide +kernel
    exact absurd h this
  · cases hi
    exact h

/-- C10: an `Encrypt` that was cut off before its first write, or not at all, and a `Delete` that succeeds. -/
theorem C10_case :
    ((toyD1.encrypt toyPrims [7] ⟨some [3], some [4]⟩ [[8]]).runN toyEnv 5 toyShared).2.store toyNew.1 dtObject = none ∧
    ((toyD1.encrypt toyPrims [7] ⟨some [3], some [4]⟩ [[8]]).runN toyEnv 7 toyShared).2.store toyNew.1 dtAccess ≠ none ∧
    ((toyD1.delete toyPrims [8] toyNew).run toyEnv
      ((toyD1.encrypt toyPrims [7] ⟨some [3], some [4]⟩ [[8]]).runN toyEnv 7 toyShared).2).1 = .ok () ∧
    ((toyD1.delete toyPrims [8] toyNew).run toyEnv
      ((toyD1.encrypt toyPrims [7] ⟨some [3], some [4]⟩ [[8]]).runN toyEnv 7 toyShared).2).2.store toyNew.1 dtObject = none := by
  have h2 : ((toyD1.encrypt toyPrims [7] ⟨some [3], some [4]⟩ [[8]]).runN toyEnv 7 toyShared).2.store toyNew.1 dtAccess ≠ none := by
    decide +kernel
  have h3 : ((toyD1.delete toyPrims [8] toyNew).run toyEnv
      ((toyD1.encrypt toyPrims [7] ⟨some [3], some [4]⟩ [[8]]).runN toyEnv 7 toyShared).2).1 = .ok () := by decide +kernel
  exact ⟨by decide +kernel, h2, h3, C10_delete_partial (toyD1_reads _) 7 rfl (.inr h2) rfl (run_ok_of h3)⟩

/-- The world after an `Update` that was cut off after its first write. -/
def toyHalf : World := ((toyD1.update toyPrims [7] nilOid ⟨some [3], some [4]⟩).runN toyEnv 6 toyShared).2

/-- C11: before the first write `[8]` reads the old contents, after the last the new ones, in between there is an error; running
`Update` again repairs it. -/
theorem C11_case :
    ((toyD1.decrypt toyPrims [8] nilOid).run toyEnv ((toyD1.update toyPrims [7] nilOid ⟨some [3], some [4]⟩).runN toyEnv 5 toyShared).2).1 =
      .ok ⟨some [1], some [2]⟩ ∧
    ((toyD1.decrypt toyPrims [8] nilOid).run toyEnv toyHalf).1 = .err .aead ∧
    ((toyD1.decrypt toyPrims [8] nilOid).run toyEnv ((toyD1.update toyPrims [7] nilOid ⟨some [3], some [4]⟩).runN toyEnv 7 toyShared).2).1 =
      .ok ⟨some [3], some [4]⟩ ∧
    ((toyD1.update toyPrims [8] nilOid ⟨some [3], some [4]⟩).run toyEnv toyHalf).1 = .ok () ∧
    ((toyD1.decrypt toyPrims [7] nilOid).run toyEnv ((toyD1.update toyPrims [8] nilOid ⟨some [3], some [4]⟩).run toyEnv toyHalf).2).1 =
      .ok ⟨some [3], some [4]⟩ := by
  decide +kernel

/-- C15: `[7]` adds `[9]`, and the list is then `[7], [8], [9]`. -/
theorem C15_add_case : ∃ w', (toyD1.addGroupsToAccess toyPrims [7] nilOid [[9], [8]]).run toyEnv toyShared = (.ok (), w') ∧
    Rel toyPrims toyD1 w'.store (toyVault.set nilOid (some ⟨⟨some [1], some [2]⟩, fun x => decide (x ∈ ([[7], [8], [9]] : List GoString))⟩)) := by
  have h : ((toyD1.addGroupsToAccess toyPrims [7] nilOid [[9], [8]]).run toyEnv toyShared).1 = .ok () := by decide +kernel
  obtain ⟨e, he, hr⟩ := C15_add toyLaws toyEnv_noFault toyEnv_randOk (toyD1_idpOk _) toyVault_rel (by decide +kernel) (run_ok_of h)
  cases he
  refine ⟨_, run_ok_of h, ?_⟩
  have hs : sanList [[7], [8]] = [[7], [8]] := by decide +kernel
  have hm : (fun x => decide (x ∈ ([[7], [8], [9]] : List GoString))) =
      fun x => GoSet.has (some (sanList [[7], [8]])) x || decide (x ∈ ([[9], [8]] : List GoString)) := by
    funext x
    rw [hs, Bool.eq_iff_iff]
    simp only [GoSet.has, List.mem_cons, List.not_mem_nil, or_false, Bool.or_eq_true, decide_eq_true_eq]
    constructor
    · rintro (h | h | h)
      · exact .inl (.inl h)
      · exact .inl (.inr h)
      · exact .inr (.inl h)
    · rintro ((h | h) | h | h)
      · exact .inl h
      · exact .inr (.inl h)
      · exact .inr (.inr h)
      · exact .inr (.inl h)
  rw [hm]
  exact hr

/-- C15: `[7]` removes itself (and `[9]`, which is not on the list), and the list is then `[8]`. -/
theorem C15_remove_case : ∃ w', (toyD1.removeGroupsFromAccess toyPrims [7] nilOid [[9], [7]]).run toyEnv toyShared = (.ok (), w') ∧
    Rel toyPrims toyD1 w'.store (toyVault.set nilOid (some ⟨⟨some [1], some [2]⟩, fun x => decide (x = [8])⟩)) ∧
    ∃ g w'', (toyD1.getAccessGroups toyPrims [8] nilOid).run toyEnv w' = (.ok g, w'') ∧ ∀ x, g.has x = decide (x = [8]) := by
  have h : ((toyD1.removeGroupsFromAccess toyPrims [7] nilOid [[9], [7]]).run toyEnv toyShared).1 = .ok () := by decide +kernel
  obtain ⟨e, he, hr⟩ := C15_remove toyLaws toyEnv_noFault toyEnv_randOk (toyD1_idpOk _) toyVault_rel (run_ok_of h)
  cases he
  have hr' : Rel toyPrims toyD1 ((toyD1.removeGroupsFromAccess toyPrims [7] nilOid [[9], [7]]).run toyEnv toyShared).2.store
      (toyVault.set nilOid (some ⟨⟨some [1], some [2]⟩, fun x => decide (x = [8])⟩)) := by
    have hs : sanList [[7], [8]] = [[7], [8]] := by decide +kernel
    have hm : (fun x => decide (x = ([8] : GoString))) =
        fun x => GoSet.has (some (sanList [[7], [8]])) x && !decide (x ∈ ([[9], [7]] : List GoString)) := by
      funext x
      rw [hs, Bool.eq_iff_iff]
      simp only [GoSet.has, List.mem_cons, List.not_mem_nil, or_false, Bool.and_eq_true, Bool.not_eq_true', decide_eq_false_iff_not,
        decide_eq_true_eq, not_or]
      constructor
      · rintro rfl; decide
      · rintro ⟨rfl | rfl, h1, h2⟩
        · exact absurd rfl h2
        · rfl
    rw [hm]
    exact hr
  refine ⟨_, run_ok_of h, hr', ?_⟩
  have hk : succeeded ((toyD1.getAccessGroups toyPrims [8] nilOid).run toyEnv
      ((toyD1.removeGroupsFromAccess toyPrims [7] nilOid [[9], [7]]).run toyEnv toyShared).2).1 = true := by decide +kernel
  cases hg : ((toyD1.getAccessGroups toyPrims [8] nilOid).run toyEnv
      ((toyD1.removeGroupsFromAccess toyPrims [7] nilOid [[9], [7]]).run toyEnv toyShared).2).1 with
  | ok g =>
    obtain ⟨e, he, h1, _⟩ := C15_get toyLaws toyEnv_noFault toyEnv_randOk (toyD1_idpOk _) hr' (run_ok_of hg)
    simp only [Vault.set, if_true, Option.some.injEq] at he
    subst he
    exact ⟨g, _, run_ok_of hg, h1⟩
  | err e => rw [hg] at hk; cases hk
  | panic => rw [hg] at hk; cases hk
  | diverge => rw [hg] at hk; cases hk

/-- C15: a reader who was added reads the same contents. -/
theorem C15_contents_case : ((toyD1.decrypt toyPrims [9] nilOid).run toyEnv
      ((toyD1.addGroupsToAccess toyPrims [7] nilOid [[9]]).run toyEnv toyShared).2).1 = .ok ⟨some [1], some [2]⟩ := by
  decide +kernel

/-- The calls made by others after `[7]` lost access. -/
def toyLater : List Call := [.update [8] nilOid ⟨some [5], none⟩, .addGroups [8] nilOid [[9]], .decrypt [9] nilOid]

/-- The world after `[8]` removed `[7]`. -/
def toyRevoked : World := ((toyD1.removeGroupsFromAccess toyPrims [8] nilOid [[7]]).run toyEnv toyShared).2

/-- C16: `[8]` removes `[7]`, whose other ID `[50]` was never on the list.  After the object was updated and `[9]` was added and
read the new contents, `[7]` still cannot read it. -/
theorem C16_case : ((toyD1.removeGroupsFromAccess toyPrims [8] nilOid [[7]]).run toyEnv toyShared).1 = .ok () ∧
    ((toyD1.decrypt toyPrims [9] nilOid).run toyEnv (codeAfter toyPrims toyD1 toyEnv toyRevoked toyLater)).1 = .ok ⟨some [5], none⟩ ∧
    ∃ e w', (callProg toyPrims toyD1 (.decrypt [7] nilOid)).run toyEnv (codeAfter toyPrims toyD1 toyEnv toyRevoked toyLater) = (.err e, w') := by
  have h : ((toyD1.removeGroupsFromAccess toyPrims [8] nilOid [[7]]).run toyEnv toyShared).1 = .ok () := by decide +kernel
  refine ⟨h, by decide +kernel, ?_⟩
  obtain ⟨v, hv, hout⟩ := C16_after_remove toyLaws toyEnv_noFault toyEnv_randOk (toyD1_idpOk _) toyVault_rel (run_ok_of h)
    ⟨[7], scopeAll, [([50], ⟨[50], scopeAll⟩)]⟩ (by
      intro e he x hx hm
      cases he
      have h1 : x = [7] ∨ x = [50] := by
        have := (C46_getIDs ⟨[7], scopeAll, [([50], ⟨[50], scopeAll⟩)]⟩ x).1.mp hx
        simpa using this
      rcases h1 with rfl | rfl
      · simp
      · exact absurd hm (by decide +kernel))
  have hno : ∀ a ∈ annotate toyPrims toyD1 toyEnv toyRevoked toyLater,
      ¬ Grants (· ∈ (⟨[7], scopeAll, [([50], ⟨[50], scopeAll⟩)]⟩ : Identity).getIDs) nilOid a := by
    intro a ha
    simp only [annotate, toyLater, List.mem_cons, List.not_mem_nil, or_false] at ha
    rcases ha with rfl | rfl | rfl
    · exact id
    · rintro ⟨_, g, hg, h9⟩
      cases List.mem_singleton.mp hg
      exact absurd h9 (by decide +kernel)
    · exact id
  rcases C16_revoked toyLaws toyEnv_noFault toyEnv_randOk (toyD1_idpOk _) hv ⟨[7], scopeAll, [([50], ⟨[50], scopeAll⟩)]⟩ hout toyLater hno
    (.decrypt [7] nilOid) rfl rfl with h1 | ⟨⟨t, h1⟩, _⟩
  · exact h1
  · cases h1

/-- C17: `[7]` removes everybody.  After further attempts nobody can do anything with the object, which is still stored. -/
theorem C17_case : ∃ w', (toyD1.removeGroupsFromAccess toyPrims [7] nilOid [[7], [8]]).run toyEnv toyShared = (.ok (), w') ∧
    ∀ calls, (∃ m, EntryAt toyPrims toyD1 (codeAfter toyPrims toyD1 toyEnv w' calls).store nilOid ⟨⟨some [1], some [2]⟩, m⟩) ∧
      ∀ t, ∃ er w'', (callProg toyPrims toyD1 (.delete t nilOid)).run toyEnv (codeAfter toyPrims toyD1 toyEnv w' calls) = (.err er, w'') := by
  have h : ((toyD1.removeGroupsFromAccess toyPrims [7] nilOid [[7], [8]]).run toyEnv toyShared).1 = .ok () := by decide +kernel
  obtain ⟨e, he, hr⟩ := C15_remove toyLaws toyEnv_noFault toyEnv_randOk (toyD1_idpOk _) toyVault_rel (run_ok_of h)
  cases he
  refine ⟨_, run_ok_of h, fun calls => ?_⟩
  have hl := C17_locked toyLaws toyEnv_noFault toyEnv_randOk (toyD1_idpOk _) hr (oid := nilOid) (if_pos rfl) (fun x => by
    have : sanList [[7], [8]] = [[7], [8]] := by decide +kernel
    rw [this]
    simp only [GoSet.has, List.mem_cons, List.not_mem_nil, or_false, Bool.and_not_self]) calls
  exact ⟨⟨_, hl.1⟩, fun t => hl.2 _ rfl⟩

/-- C18: `[7]` encrypts for `[8]`; the list is `[8], [7]`.  It encrypts for the byte FF, and then U+FFFD is on the list instead. -/
theorem C18_case : (∃ oid w1 a, (toyD1.encrypt toyPrims [7] ⟨some [3], none⟩ [[8]]).run toyEnv toyShared = (.ok oid, w1) ∧
      AccAt toyPrims toyD1 w1.store oid a ∧ ∀ x, a.groups.has x = true ↔ x = [8] ∨ x = [7]) ∧
    ∃ oid w1 a, (toyD1.encrypt toyPrims [7] ⟨some [3], none⟩ [[0xFF]]).run toyEnv toyShared = (.ok oid, w1) ∧
      AccAt toyPrims toyD1 w1.store oid a ∧ a.groups.has [0xFF] = false ∧ a.groups.has [0xEF, 0xBF, 0xBD] = true := by
  constructor
  · have h : ((toyD1.encrypt toyPrims [7] ⟨some [3], none⟩ [[8]]).run toyEnv toyShared).1 = .ok toyNew := by decide +kernel
    obtain ⟨i, wi, a, hi, ha, hx⟩ := C18_faithful_partial toyLaws (run_ok_of h) (by decide +kernel) (by
      rintro i wi hi; cases hi; decide +kernel)
    cases hi
    exact ⟨_, _, a, run_ok_of h, ha, fun x => by rw [hx]; simp⟩
  · have h : ((toyD1.encrypt toyPrims [7] ⟨some [3], none⟩ [[0xFF]]).run toyEnv toyShared).1 = .ok toyNew := by decide +kernel
    obtain ⟨a, ha, hx⟩ := C18_false toyLaws (run_ok_of h)
    exact ⟨_, _, a, run_ok_of h, ha, hx⟩

/-- C19: the calls of which the theorems say what they leave behind do succeed. -/
theorem C19_case : ((toyD1.update toyPrims [8] nilOid ⟨some [3], some [4]⟩).run toyEnv toyShared).1 = .ok () ∧
    ((toyD1.addGroupsToAccess toyPrims [7] nilOid [[9]]).run toyEnv toyShared).1 = .ok () ∧
    ((toyD1.removeGroupsFromAccess toyPrims [7] nilOid [[8]]).run toyEnv toyShared).1 = .ok () ∧
    ((toyD1.delete toyPrims [7] nilOid).run toyEnv toyShared).1 = .ok () ∧
    ((toyD1.delete toyPrims [7] nilOid).run { toyEnv with fault := fun t => if t = 2 then .before else .none } toyShared).1 = .err (.io .failure) := by
  decide +kernel

end D1
