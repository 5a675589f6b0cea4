import Verif.Props.Tidy
import Verif.Props.Keywords
/-!
# C121: where records can be, whatever fails
-/
namespace D1
open Spec Prog

/-- Where records may be: objects and access lists under IDs of objects, users, groups, and nodes under labels of these keywords. -/
def Confined (P : Prims) (i : SecureIndex) (K : List GoString) (x : Bytes) (dt : DataType) : Prop :=
  ((dt = dtObject ∨ dt = dtAccess) ∧ ∃ oid : Oid, oid.1 = x) ∨ dt = dtUser ∨ dt = dtGroup ∨
    (dt = dtNode ∧ ∃ kw ∈ K, ∃ c, x = ixLabel P i kw c)

section
variable {P : Prims} (L : P.Laws) {d : D1} {i : SecureIndex} {s : Standalone} {fuel : Nat} {env : Env} {R : Bytes → DataType → Prop}

theorem makes_anyhow {α : Type} {p : Prog α} (h : AllEff (MakesAt R) p) {w : World} (hw : ∀ x dt, w.store x dt ≠ none → R x dt) :
    ∀ x dt, (p.run env w).2.store x dt ≠ none → R x dt := by
  induction p generalizing w with
  | op e k ih =>
    rw [run_op]
    refine ih _ (h.2 _) ?_
    have hx : ∀ x dt, (w.store.exec (env.rand w.t) (env.now w.t) e).2 x dt ≠ none → R x dt := by
      have := makesAt_exec (env := { env with fault := fun _ => .none }) h.1 (fun _ => rfl) hw
      rw [exec_none (env := { env with fault := fun _ => .none }) fun _ => rfl] at this
      exact this
    simp only [World.exec]
    cases env.fault w.t
    · exact hx
    · exact hw
    · exact hx
  | _ => exact hw

include L in
/-- C121, whatever fails: records are only ever made under IDs of objects, as users and groups, and under labels of the keywords of the calls. -/
theorem C121_confined (hd : d.idProvider = s.getIdentity P) (hi : i.idProvider = s.getIdentity P) (hk : i.indexKey.length = 32) {α : Type}
    (p : Client α) {K : List GoString} {w : World} (hkw : ∀ c ∈ clientCalls P d i s fuel env p w, ∀ kw ∈ c.keyword, kw ∈ K)
    (hw : ∀ x dt, w.store x dt ≠ none → Confined P i K x dt) :
    ∀ x dt, ((clientProg P d i s fuel p).run env w).2.store x dt ≠ none → Confined P i K x dt := by
  have hu : ∀ x, Confined P i K x dtUser := fun _ => .inr (.inl rfl)
  have hg : ∀ x, Confined P i K x dtGroup := fun _ => .inr (.inr (.inl rfl))
  induction p generalizing w with
  | done a => exact hw
  | call c k ih =>
    simp only [clientCalls, List.mem_cons, forall_eq_or_imp] at hkw
    have hp : AllEff (MakesAt (Confined P i K)) (libProg P d i s fuel c) := by
      cases c with
      | dir x => exact makes_token hu hg (.inr (.inr ⟨x, rfl⟩))
      | createToken p => exact makes_token hu hg (.inl ⟨p, rfl⟩)
      | tokenContents t => exact makes_token hu hg (.inr (.inl ⟨t, rfl⟩))
      | d1 c => exact AllEff.bind (makes_call hd (fun oid dt hdt => .inl ⟨hdt, oid, rfl⟩) c) fun _ => trivial
      | index c =>
        refine AllEff.bind (allEff_ixProg L hk (by rw [hi]; exact makes_identity _) (by simp [MakesAt]) (fun e n h1 h2 => ?_) fuel) fun _ => trivial
        rintro x dt b rfl
        simp only [Eff.dataType, Eff.entry, Option.some.injEq] at h1 h2
        subst h1 h2
        exact .inr (.inr (.inr ⟨rfl, _, hkw.1 _ (by simp [LibCall.keyword]), n, rfl⟩))
    have hw' := makes_anyhow (env := env) hp hw
    simp only [clientProg, run_attempt]
    rcases hrun : (libProg P d i s fuel c).run env w with ⟨o, w'⟩
    rw [hrun] at hw'
    simp only [hrun] at hkw
    cases o with
    | ok a => exact ih _ hkw.2 hw'
    | err e => exact ih _ hkw.2 hw'
    | panic => exact hw'
    | diverge => exact hw'

end

/-- The hypotheses hold with the empty store for any client, under any failures. -/
example {P : Prims} {d : D1} {i : SecureIndex} {s : Standalone} {fuel : Nat} {env : Env} {α : Type} (p : Client α) :
    (∀ c ∈ clientCalls P d i s fuel env p (memView nothing), ∀ kw ∈ c.keyword,
      kw ∈ (clientCalls P d i s fuel env p (memView nothing)).flatMap LibCall.keyword) ∧
    ∀ x dt, (memView nothing).store x dt ≠ none → Confined P i ((clientCalls P d i s fuel env p (memView nothing)).flatMap LibCall.keyword) x dt :=
  ⟨fun c hc kw hkw => List.mem_flatMap.mpr ⟨c, hc, hkw⟩, fun _ _ h => absurd rfl h⟩

end D1
