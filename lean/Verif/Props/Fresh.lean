import Mathlib.Data.Multiset.Filter
import Mathlib.Algebra.Order.Group.Multiset
import Verif.Spec.Fresh
import Verif.Props.NoPanic
/-!
# Every key, nonce and password is drawn for one use: C84
-/
namespace D1
open Spec Prog

/-! ## A program logic for what is drawn and what is used -/

namespace Prog
variable {α β : Type}

/-- The answers an event adds to the pool. -/
def gain (e : Event) : List Bytes := (Step.eff e).drawn

/-- The record an effect sends. -/
def sent : Eff → Option (DataType × Bytes)
  | .put _ dt b => some (dt, b)
  | .update _ dt b => some (dt, b)
  | _ => none

/-- With the answers `D` at hand the program makes every record of answers not used before, and `Q` holds of its result and what is left. -/
def Fresh (B : DataType → Bytes → List Bytes → Prop) (Q : α → Multiset Bytes → Prop) : Prog α → Multiset Bytes → Prop
  | ret a, D => Q a D
  | op e k, D => ∃ (us : List Bytes) (D' : Multiset Bytes), (us : Multiset Bytes) + D' ≤ D ∧
      (match sent e with | none => us = [] | some x => B x.1 x.2 us) ∧ ∀ r, Fresh B Q (k r) ((gain ⟨e, r⟩ : Multiset Bytes) + D')
  | _, _ => True

variable {B : DataType → Bytes → List Bytes → Prop} {Q : α → Multiset Bytes → Prop} {D D' : Multiset Bytes}

/-- Having more at hand does no harm. -/
def Up (Q : α → Multiset Bytes → Prop) : Prop := ∀ a D D', D ≤ D' → Q a D → Q a D'

theorem Fresh.more (hQ : Up Q) {p : Prog α} (h : Fresh B Q p D) (hd : D ≤ D') : Fresh B Q p D' := by
  induction p generalizing D D' with
  | ret a => exact hQ a _ _ hd h
  | op e k ih =>
    obtain ⟨us, D1, h1, h2, h3⟩ := h
    exact ⟨us, D1, h1.trans hd, h2, h3⟩
  | _ => trivial

def NoSend (e : Eff) : Prop := sent e = none

/-- A program that sends nothing leaves at least what was at hand. -/
theorem fresh_attempt {p : Prog α} {Q : β → Multiset Bytes → Prop} (hQ : Up Q) (hp : AllEff NoSend p) {k : Except Err α → Prog β}
    (hk : ∀ r, Fresh B Q (k r) D) : Fresh B Q (p.attempt k) D := by
  induction p generalizing D with
  | ret a => exact hk _
  | err e => exact hk _
  | op e c ih =>
    refine ⟨[], D, by simp, ?_, fun r => ih r (hp.2 r) fun x => (hk x).more hQ (Multiset.le_add_left _ _)⟩
    rw [hp.1]
  | _ => trivial

theorem fresh_bind {p : Prog α} {Q : β → Multiset Bytes → Prop} (hQ : Up Q) (hp : AllEff NoSend p) {k : α → Prog β}
    (hk : ∀ a, Fresh B Q (k a) D) : Fresh B Q (p.bind k) D := by
  rw [bind_eq_attempt]
  exact fresh_attempt hQ hp fun r => by cases r <;> first | trivial | exact hk _

theorem fresh_rand {n : Nat} {k : BytesN n → Prog α} (hk : ∀ b, Fresh B Q (k b) (([b.1] : List Bytes) + D)) :
    Fresh B Q ((randBytes n).bind k) D := by
  refine ⟨[], D, by simp, rfl, fun r => ?_⟩
  cases r with
  | none => trivial
  | some b => exact hk b

theorem fresh_ioPut {f : IoErr → Err} {id : Bytes} {dt : DataType} {b : Bytes} {k : Unit → Prog α} (us : List Bytes)
    (hd : (us : Multiset Bytes) + D' ≤ D) (hb : B dt b us) (hk : Fresh B Q (k ()) D') : Fresh B Q ((ioPut f id dt b).bind k) D := by
  refine ⟨us, D', hd, hb, fun r => ?_⟩
  rcases r with e | u
  · trivial
  · simpa [gain, Step.drawn] using hk

theorem fresh_ioUpdate {f : IoErr → Err} {id : Bytes} {dt : DataType} {b : Bytes} {k : Unit → Prog α} (us : List Bytes)
    (hd : (us : Multiset Bytes) + D' ≤ D) (hb : B dt b us) (hk : Fresh B Q (k ()) D') : Fresh B Q ((ioUpdate f id dt b).bind k) D := by
  refine ⟨us, D', hd, hb, fun r => ?_⟩
  rcases r with e | u
  · trivial
  · simpa [gain, Step.drawn] using hk

/-- Replacing errors changes nothing. -/
theorem Fresh.mapErr {p : Prog β} {e : Err} {k : β → Prog α} (h : Fresh B Q (p.bind k) D) : Fresh B Q ((p.mapErr e).bind k) D := by
  induction p generalizing D with
  | op e c ih =>
    obtain ⟨us, D', h1, h2, h3⟩ := h
    exact ⟨us, D', h1, h2, fun r => ih r (h3 r)⟩
  | ret a => exact h
  | _ => trivial

end Prog

/-! ## Many calls at once -/

/-- The answers call `i` has at hand. -/
def poolOf (G : Multiset (Nat × Bytes)) (i : Nat) : Multiset Bytes := (G.filter fun x => x.1 = i).map Prod.snd

theorem pool_split (G : Multiset (Nat × Bytes)) (i : Nat) :
    G = (poolOf G i).map (Prod.mk i) + G.filter fun x => ¬ x.1 = i := by
  conv_lhs => rw [← Multiset.filter_add_not (fun x => x.1 = i) G]
  congr 1
  rw [poolOf, Multiset.map_map]
  conv_lhs => rw [← Multiset.map_id (G.filter fun x => x.1 = i)]
  exact Multiset.map_congr rfl fun x hx => by
    have := (Multiset.mem_filter.mp hx).2
    simp [← this]

theorem poolOf_add (G G' : Multiset (Nat × Bytes)) (i : Nat) : poolOf (G + G') i = poolOf G i + poolOf G' i := by
  simp [poolOf, Multiset.filter_add]

theorem poolOf_map_self (D : Multiset Bytes) (i : Nat) : poolOf (D.map (Prod.mk i)) i = D := by
  rw [poolOf, Multiset.filter_eq_self.mpr (by simp), Multiset.map_map]
  simp

theorem poolOf_map_other (D : Multiset Bytes) {i j : Nat} (h : i ≠ j) : poolOf (D.map (Prod.mk i)) j = 0 := by
  rw [poolOf, Multiset.filter_eq_nil.mpr (by simp [h])]
  rfl

/-- Call `i` uses some of what it has. -/
theorem pool_use {G : Multiset (Nat × Bytes)} {i : Nat} {U D' : Multiset Bytes} (h : U + D' ≤ poolOf G i) :
    ∃ G', U.map (Prod.mk i) + G' ≤ G ∧ poolOf G' i = D' ∧ ∀ j, j ≠ i → poolOf G' j = poolOf G j := by
  refine ⟨D'.map (Prod.mk i) + G.filter fun x => ¬ x.1 = i, ?_, ?_, fun j hj => ?_⟩
  · conv_rhs => rw [pool_split G i]
    rw [← add_assoc, ← Multiset.map_add]
    exact add_le_add_left (Multiset.map_le_map h) _
  · rw [poolOf_add, poolOf_map_self]
    have : poolOf (G.filter fun x => ¬ x.1 = i) i = 0 := by
      rw [poolOf, Multiset.filter_filter, Multiset.filter_eq_nil.mpr (by simp)]
      rfl
    rw [this, add_zero]
  · rw [poolOf_add, poolOf_map_other _ (Ne.symm hj), zero_add, poolOf, Multiset.filter_filter, poolOf]
    congr 1
    apply Multiset.filter_congr
    intro x _
    constructor
    · exact fun hx => hx.1
    · exact fun hx => ⟨hx, fun h => hj (hx.symm.trans h)⟩

section
variable {made : Out → List Bytes → Prop}

/-- At the end of a call: what it hands out is made of answers still at hand. -/
def handsOut (made : Out → List Bytes → Prop) (o : Option Out) (D : Multiset Bytes) : Prop :=
  ∀ x, o = some x → ∃ us : List Bytes, (us : Multiset Bytes) ≤ D ∧ made x us

theorem handsOut_up : Up (handsOut made) := fun _ _ _ hd h x hx => by
  obtain ⟨us, h1, h2⟩ := h x hx
  exact ⟨us, h1.trans hd, h2⟩

/-- Programs that make everything of fresh answers do so together as well. -/
theorem fresh_together (tr : List (Nat × Step)) (p : Nat → Prog (Option Out)) (G : Multiset (Nat × Bytes))
    (hf : ∀ i, Fresh (fun dt b => made (.record dt b)) (handsOut made) (p i) (poolOf G i)) (ha : ∀ i, Acts (p i) (own i tr)) :
    ∃ uss : List (List Bytes), List.Forall₂ made (outsIn tr) uss ∧
      (uss.flatten : Multiset Bytes) ≤ G.map Prod.snd + (drawnIn tr : Multiset Bytes) := by
  induction tr generalizing p G with
  | nil => exact ⟨[], .nil, Multiset.zero_le _⟩
  | cons x tr ih =>
    obtain ⟨i, st⟩ := x
    have hi := ha i
    have hown : own i ((i, st) :: tr) = st :: own i tr := by simp [own]
    have hoth : ∀ j, j ≠ i → own j ((i, st) :: tr) = own j tr := fun j hj => by simp [own, Ne.symm hj]
    rw [hown] at hi
    generalize hl : own i tr = l at hi
    cases hpi : p i with
    | op e k =>
      rw [hpi] at hi
      have hfi := hf i
      rw [hpi] at hfi
      obtain ⟨us, D', h1, h2, h3⟩ := hfi
      cases hi with
      | op _ _ r _ hr =>
        obtain ⟨G', g1, g2, g3⟩ := pool_use h1
        obtain ⟨uss, u1, u2⟩ := ih (fun j => if j = i then k r else p j) ((gain ⟨e, r⟩ : Multiset Bytes).map (Prod.mk i) + G')
          (fun j => by
            by_cases hj : j = i
            · subst hj
              rw [if_pos rfl, poolOf_add, poolOf_map_self, g2]
              exact h3 r
            · rw [if_neg hj, poolOf_add, poolOf_map_other _ (Ne.symm hj), zero_add, g3 j hj]
              exact hf j)
          (fun j => by
            by_cases hj : j = i
            · subst hj
              rw [if_pos rfl, hl]
              exact hr
            · rw [if_neg hj, ← hoth j hj]
              exact ha j)
        have g1' : (us : Multiset Bytes) + G'.map Prod.snd ≤ G.map Prod.snd := by
          have := Multiset.map_le_map (f := Prod.snd) g1
          simpa [Multiset.map_add, Multiset.map_map] using this
        have hdr : drawnIn ((i, Step.eff ⟨e, r⟩) :: tr) = gain ⟨e, r⟩ ++ drawnIn tr := by simp [drawnIn, gain]
        have u2' : (uss.flatten : Multiset Bytes) ≤ (gain ⟨e, r⟩ : Multiset Bytes) + G'.map Prod.snd + (drawnIn tr : Multiset Bytes) := by
          simpa [Multiset.map_add, Multiset.map_map] using u2
        have fin : (us : Multiset Bytes) + (uss.flatten : Multiset Bytes) ≤
            G.map Prod.snd + (drawnIn ((i, Step.eff ⟨e, r⟩) :: tr) : Multiset Bytes) := by
          rw [hdr, ← Multiset.coe_add]
          calc (us : Multiset Bytes) + (uss.flatten : Multiset Bytes)
              ≤ us + ((gain ⟨e, r⟩ : Multiset Bytes) + G'.map Prod.snd + (drawnIn tr : Multiset Bytes)) := add_le_add_right u2' _
            _ = (us + G'.map Prod.snd) + ((gain ⟨e, r⟩ : Multiset Bytes) + (drawnIn tr : Multiset Bytes)) := by
                simp only [add_assoc, add_left_comm, add_comm]
            _ ≤ _ := add_le_add_left g1' _
        cases e with
        | put id dt b => exact ⟨us :: uss, .cons h2 u1, by simpa using fin⟩
        | update id dt b => exact ⟨us :: uss, .cons h2 u1, by simpa using fin⟩
        | get id dt => exact ⟨uss, u1, by cases h2; simpa using fin⟩
        | delete id dt => exact ⟨uss, u1, by cases h2; simpa using fin⟩
        | rand n =>
          refine ⟨uss, ?_, by cases h2; simpa using fin⟩
          cases r <;> exact u1
        | now => exact ⟨uss, u1, by cases h2; simpa using fin⟩
    | ret o =>
      rw [hpi] at hi
      have hfi := hf i
      rw [hpi] at hfi
      cases hi with
      | done o =>
        have rest : ∀ (U D' : Multiset Bytes), U + D' ≤ poolOf G i → ∃ uss : List (List Bytes), List.Forall₂ made (outsIn tr) uss ∧
            U + (uss.flatten : Multiset Bytes) ≤ G.map Prod.snd + (drawnIn tr : Multiset Bytes) := by
          intro U D' hU
          obtain ⟨G', g1, g2, g3⟩ := pool_use hU
          obtain ⟨uss, u1, u2⟩ := ih (fun j => if j = i then .panic else p j) G'
            (fun j => by
              by_cases hj : j = i
              · rw [if_pos hj]; trivial
              · rw [if_neg hj, g3 j hj]; exact hf j)
            (fun j => by
              by_cases hj : j = i
              · subst hj
                rw [if_pos rfl, hl]
                exact .stop _
              · rw [if_neg hj, ← hoth j hj]
                exact ha j)
          refine ⟨uss, u1, ?_⟩
          have g1' : U + G'.map Prod.snd ≤ G.map Prod.snd := by
            have := Multiset.map_le_map (f := Prod.snd) g1
            simpa [Multiset.map_add, Multiset.map_map] using this
          calc U + (uss.flatten : Multiset Bytes) ≤ U + (G'.map Prod.snd + (drawnIn tr : Multiset Bytes)) := add_le_add_right u2 _
            _ = (U + G'.map Prod.snd) + (drawnIn tr : Multiset Bytes) := (add_assoc _ _ _).symm
            _ ≤ _ := add_le_add_left g1' _
        cases o with
        | none =>
          obtain ⟨uss, u1, u2⟩ := rest 0 0 (by rw [add_zero]; exact Multiset.zero_le _)
          exact ⟨uss, u1, by simpa [drawnIn, Step.drawn] using u2⟩
        | some o =>
          obtain ⟨us, h1, h2⟩ := hfi o rfl
          obtain ⟨uss, u1, u2⟩ := rest us 0 (by simpa using h1)
          exact ⟨us :: uss, .cons h2 u1, by simpa [drawnIn, Step.drawn] using u2⟩
    | err e => rw [hpi] at hi; cases hi
    | panic => rw [hpi] at hi; cases hi
    | diverge => rw [hpi] at hi; cases hi

end

/-! ## The calls -/

/-- A call and what it hands to its caller. -/
def outProg (P : Prims) (d : D1) (i : SecureIndex) (s : Standalone) : ApiCall → Prog (Option Out)
  | .d1 c => (callProg P d c).bind fun _ => .ret none
  | .createToken p => (d.createToken P p).bind fun t => .ret (some (.token (t.string P)))
  | .tokenContents t => (d.getTokenContents P t).bind fun _ => .ret none
  | .index fuel c => (ixProg P i fuel c).bind fun _ => .ret none
  | .dir (.newUser sc) => (s.newUser P sc).bind fun r => .ret (some (.password r.2))
  | .dir (.loginUser u p) => (s.loginUser P u p).bind fun r => .ret (some (.token r.1))
  | .dir (.changePassword u p) => (s.changeUserPassword P u p).bind fun r => .ret (some (.password r))
  | .dir c => (dirProg P s c).bind fun _ => .ret none

section
variable {P : Prims} (L : P.Laws) {keys : Keys} {conf : StandaloneConfig} {d : D1} {i : SecureIndex} {s : Standalone}

section
variable {α : Type} {B : DataType → Bytes → List Bytes → Prop} {Q : α → Multiset Bytes → Prop} {D : Multiset Bytes}

include L in
theorem fresh_encrypt {c : Cryptor} {p a : J} {k : Bytes × Bytes → Prog α}
    (hk : ∀ (key : BytesN 32) (nonce : BytesN 12), Fresh B Q (k (kwpBox P c.kwp key.1, gcmBox P key.1 nonce.1 a.render p.render))
      (([key.1, nonce.1] : List Bytes) + D)) : Fresh B Q ((c.encrypt P p a).bind k) D := by
  rw [Cryptor.encrypt_eq L, bind_assoc]
  refine fresh_rand fun key => ?_
  rw [bind_assoc]
  refine fresh_rand fun nonce => ?_
  have e : (([nonce.1] : List Bytes) : Multiset Bytes) + ((([key.1] : List Bytes) : Multiset Bytes) + D) = (([key.1, nonce.1] : List Bytes) : Multiset Bytes) + D := by
    rw [← add_assoc, Multiset.coe_add]
    congr 1
    exact Multiset.coe_eq_coe.mpr (List.Perm.swap _ _ _)
  rw [e]
  exact hk key nonce

end

/-! ### The documents -/

include L in
theorem object_made (oid : Oid) (o : NBytes) (key : BytesN 32) (nonce : BytesN 12) (a t : Bytes) :
    MadeFrom P keys conf (.record dtObject (SealedObject.toJ ⟨some (gcmBox P key.1 nonce.1 a t), o, oid⟩).render) [key.1, nonce.1] :=
  ⟨_, _, rfl, ⟨key.2, nonce.2, a, t, by
    simp [bytesField, L.unmarshal_render, SealedObject.toJ, J.san, JFields.san, J.fields, JFields.lookup, gcmBox, show nAssociatedData ≠ nCiphertext by decide,
      show nOID ≠ nCiphertext by decide]⟩, .inl rfl⟩


section
variable {c : Cryptor} {key : BytesN 32} {nonce : BytesN 12} {a t : Bytes}

include L in
theorem key_in {b : Bytes} (h : bytesField P b nWrappedKey = some (kwpBox P c.kwp key.1)) : KeyIn P c.kwp b key.1 := ⟨_, h, kwpWrap_box L _ _ key.2⟩

include L in
theorem access_doc (oid : Oid) : SealedIn P (SealedAccess.toJ ⟨oid, some (gcmBox P key.1 nonce.1 a t), some (kwpBox P c.kwp key.1)⟩).render key.1 nonce.1 ∧
    KeyIn P c.kwp (SealedAccess.toJ ⟨oid, some (gcmBox P key.1 nonce.1 a t), some (kwpBox P c.kwp key.1)⟩).render key.1 := by
  refine ⟨⟨key.2, nonce.2, a, t, ?_⟩, key_in L ?_⟩ <;>
    simp [bytesField, L.unmarshal_render, SealedAccess.toJ, J.san, JFields.san, J.fields, JFields.lookup, gcmBox, show nWrappedKey ≠ nCiphertext by decide]

include L in
theorem node_doc : SealedIn P (SealedNode.toJ ⟨some (gcmBox P key.1 nonce.1 a t), some (kwpBox P c.kwp key.1)⟩).render key.1 nonce.1 ∧
    KeyIn P c.kwp (SealedNode.toJ ⟨some (gcmBox P key.1 nonce.1 a t), some (kwpBox P c.kwp key.1)⟩).render key.1 := by
  refine ⟨⟨key.2, nonce.2, a, t, ?_⟩, key_in L ?_⟩ <;>
    simp [bytesField, L.unmarshal_render, SealedNode.toJ, J.san, JFields.san, J.fields, JFields.lookup, gcmBox, show nWrappedKey ≠ nCiphertext by decide]

include L in
theorem user_doc (uid : GoString) : SealedIn P (SealedUser.toJ ⟨uid, some (gcmBox P key.1 nonce.1 a t), some (kwpBox P c.kwp key.1)⟩).render key.1 nonce.1 ∧
    KeyIn P c.kwp (SealedUser.toJ ⟨uid, some (gcmBox P key.1 nonce.1 a t), some (kwpBox P c.kwp key.1)⟩).render key.1 := by
  refine ⟨⟨key.2, nonce.2, a, t, ?_⟩, key_in L ?_⟩ <;>
    simp [bytesField, L.unmarshal_render, SealedUser.toJ, J.san, JFields.san, J.fields, JFields.lookup, gcmBox, show nWrappedKey ≠ nCiphertext by decide]

include L in
theorem group_doc (gid : GoString) : SealedIn P (SealedGroup.toJ ⟨gid, some (gcmBox P key.1 nonce.1 a t), some (kwpBox P c.kwp key.1)⟩).render key.1 nonce.1 ∧
    KeyIn P c.kwp (SealedGroup.toJ ⟨gid, some (gcmBox P key.1 nonce.1 a t), some (kwpBox P c.kwp key.1)⟩).render key.1 := by
  refine ⟨⟨key.2, nonce.2, a, t, ?_⟩, key_in L ?_⟩ <;>
    simp [bytesField, L.unmarshal_render, SealedGroup.toJ, J.san, JFields.san, J.fields, JFields.lookup, gcmBox, show nWrappedKey ≠ nCiphertext by decide]

include L in
theorem token_doc (e : GoTime) : SealedIn P (SealedToken.toJ P ⟨e, some (gcmBox P key.1 nonce.1 a t), some (kwpBox P c.kwp key.1)⟩).render key.1 nonce.1 ∧
    KeyIn P c.kwp (SealedToken.toJ P ⟨e, some (gcmBox P key.1 nonce.1 a t), some (kwpBox P c.kwp key.1)⟩).render key.1 := by
  refine ⟨⟨key.2, nonce.2, a, t, ?_⟩, key_in L ?_⟩ <;>
    simp [bytesField, L.unmarshal_render, SealedToken.toJ, J.san, JFields.san, J.fields, JFields.lookup, gcmBox, show nWrappedKey ≠ nCiphertext by decide]

end

/-! ### The programs -/

/-- Every record is made of fresh answers. -/
abbrev FreshP (P : Prims) (keys : Keys) (conf : StandaloneConfig) (p : Prog (Option Out)) (D : Multiset Bytes) : Prop :=
  Fresh (fun dt b => MadeFrom P keys conf (.record dt b)) (handsOut (MadeFrom P keys conf)) p D

theorem freshP_none (D : Multiset Bytes) : FreshP P keys conf (.ret none) D := fun _ h => by cases h

/-- A call that sends nothing and hands out nothing. -/
theorem freshP_quiet {α : Type} {p : Prog α} (h : AllEff NoSend p) (D : Multiset Bytes) : FreshP P keys conf (p.bind fun _ => .ret none) D :=
  fresh_bind handsOut_up h fun _ => freshP_none D

variable {D : Multiset Bytes}

theorem noSend_guard (hi : ∀ t, AllEff NoSend (d.idProvider t)) (t : GoString) (sc : Scope) (oid : Oid) : AllEff NoSend (guardProg P d t sc oid) :=
  allEff_guardProg (hi t) rfl sc

include L in
theorem freshP_call (hd : d.accessCryptor.kwp = keys.aek) (hi : ∀ t, AllEff NoSend (d.idProvider t)) (c : Call) :
    FreshP P keys conf ((callProg P d c).bind fun _ => .ret none) D := by
  have hacc : ∀ (oid : Oid) (key : BytesN 32) (nonce : BytesN 12) (a t : Bytes), MadeFrom P keys conf
      (.record dtAccess (SealedAccess.toJ ⟨oid, some (gcmBox P key.1 nonce.1 a t), some (kwpBox P d.accessCryptor.kwp key.1)⟩).render) [key.1, nonce.1] :=
    fun oid key nonce a t => ⟨_, _, rfl, (access_doc L oid).1, .inr ⟨_, .inl ⟨rfl, hd⟩, (access_doc L oid).2⟩⟩
  cases c with
  | encrypt t o gs =>
    simp only [callProg, D1.encrypt, Prog.bind_eq, Prog.bind_assoc, sealObject_bind, sealAccess_bind, Prog.pure_eq]
    refine fresh_bind handsOut_up (allEff_verifyAccess (hi t) _) fun id => fresh_bind handsOut_up (allEff_newV4 fun _ => rfl) fun oid =>
      fresh_encrypt L fun k1 n1 => fresh_bind handsOut_up (allEff_ofPanic _) fun acc => fresh_encrypt L fun k2 n2 => ?_
    refine fresh_ioPut [k1.1, n1.1] (D' := (([k2.1, n2.1] : List Bytes) : Multiset Bytes) + D) (le_of_eq (add_left_comm _ _ _)) (object_made L _ _ _ _ _ _) ?_
    exact fresh_ioPut [k2.1, n2.1] le_rfl (hacc _ _ _ _ _) (freshP_none _)
  | update t oid o =>
    simp only [callProg, update_eq, Prog.bind_assoc, sealObject_bind, sealAccess_bind]
    refine fresh_bind handsOut_up (noSend_guard hi t _ oid) fun acc => fresh_encrypt L fun k1 n1 => fresh_encrypt L fun k2 n2 => ?_
    refine fresh_ioUpdate [k1.1, n1.1] (D' := (([k2.1, n2.1] : List Bytes) : Multiset Bytes) + D) (le_of_eq (add_left_comm _ _ _)) (object_made L _ _ _ _ _ _) ?_
    exact fresh_ioUpdate [k2.1, n2.1] le_rfl (hacc _ _ _ _ _) (freshP_none _)
  | decrypt t oid =>
    refine freshP_quiet ?_ D
    rw [callProg, decrypt_eq]
    exact AllEff.bind (AllEff.bind (noSend_guard hi t _ oid) fun a => AllEff.bind (allEff_getSealedObject rfl) fun _ => allEff_ofExcept _) fun _ => trivial
  | delete t oid =>
    refine freshP_quiet ?_ D
    refine AllEff.bind (AllEff.bind (allEff_verifyAccess (hi t) _) fun i => AllEff.attempt (allEff_getSealedAccess rfl) fun r => ?_) fun _ => trivial
    rcases r with e | a
    · cases e <;> trivial
    · exact AllEff.bind (allEff_ofExcept _) fun _ => AllEff.bind (allEff_ioDelete rfl) fun _ => allEff_ioDelete rfl
  | getGroups t oid =>
    refine freshP_quiet ?_ D
    rw [callProg, getAccessGroups_eq]
    exact AllEff.bind (AllEff.bind (noSend_guard hi t _ oid) fun a => trivial) fun _ => trivial
  | addGroups t oid gs =>
    simp only [callProg, addGroupsToAccess_eq, Prog.bind_assoc, sealAccess_bind]
    refine fresh_bind handsOut_up (noSend_guard hi t _ oid) fun acc => fresh_bind handsOut_up (allEff_ofPanic _) fun acc => fresh_encrypt L fun k2 n2 => ?_
    exact fresh_ioUpdate [k2.1, n2.1] le_rfl (hacc _ _ _ _ _) (freshP_none _)
  | removeGroups t oid gs =>
    simp only [callProg, removeGroupsFromAccess_eq, Prog.bind_assoc, sealAccess_bind]
    refine fresh_bind handsOut_up (noSend_guard hi t _ oid) fun acc => fresh_encrypt L fun k2 n2 => ?_
    exact fresh_ioUpdate [k2.1, n2.1] le_rfl (hacc _ _ _ _ _) (freshP_none _)
  | authorize t oid =>
    refine freshP_quiet ?_ D
    rw [callProg, authorizeIdentity_eq]
    exact AllEff.bind (AllEff.bind (noSend_guard hi t _ oid) fun a => trivial) fun _ => trivial

include L in
theorem freshP_createToken (hd : d.tokenCryptor.kwp = keys.tek) (p : NBytes) :
    FreshP P keys conf ((d.createToken P p).bind fun t => .ret (some (.token (t.string P)))) D := by
  simp only [D1.createToken, newToken, Token.seal, Prog.bind_eq, Prog.bind_assoc, Prog.pure_eq, Prog.ret_bind]
  refine fresh_bind handsOut_up (allEff_now rfl) fun now => fresh_encrypt L fun k n => ?_
  rintro x ⟨⟩
  exact ⟨[k.1, n.1], Multiset.le_add_right _ _, _, _, _, b64Dec_enc _ _, rfl, (token_doc L _).1, .inl (hd ▸ (token_doc L _).2)⟩

section
variable (hix : i.indexKey = keys.iek) (hk : i.indexKey.length = 32)

include hix hk in
theorem node_wraps (kw : GoString) : Wraps P keys conf dtNode (ixCryptor P i kw).kwp := by
  refine .inr (.inr (.inr ⟨rfl, kw, ?_⟩))
  rw [← hix, kmacKdf_eq P 32 _ _ _ (by omega) (by omega)]
  simp [ixCryptor]

include hix hk L in
theorem node_made (kw : GoString) (key : BytesN 32) (nonce : BytesN 12) (a t : Bytes) : MadeFrom P keys conf
    (.record dtNode (SealedNode.toJ ⟨some (gcmBox P key.1 nonce.1 a t), some (kwpBox P (ixCryptor P i kw).kwp key.1)⟩).render) [key.1, nonce.1] :=
  ⟨_, _, rfl, (node_doc L).1, .inr ⟨_, node_wraps hix hk kw, (node_doc L).2⟩⟩

include hix hk L in
theorem freshP_deleteLoop (kw x : GoString) (fuel : Nat) (n : Node) :
    FreshP P keys conf ((deleteLoop P (ixTagger P i kw) (ixCryptor P i kw) x fuel n).bind fun _ => .ret none) D := by
  induction fuel generalizing n D with
  | zero => trivial
  | succ fuel ih =>
    rw [deleteLoop, attempt_bind]
    refine fresh_attempt handsOut_up (allEff_getNextNode (fun _ => rfl) _ _ _) fun r => ?_
    rcases r with e | next
    · cases e <;> first | trivial | exact freshP_none _
    · simp only
      split
      · simp only [Prog.bind_eq, Prog.bind_assoc]
        refine fresh_bind handsOut_up (allEff_ofPanic _) fun label => ?_
        rw [deleteNode, attempt_bind]
        refine fresh_attempt handsOut_up (allEff_getNextNode (fun _ => rfl) _ _ _) fun r => ?_
        rcases r with e | nn
        · cases e <;> first | trivial | exact fresh_bind handsOut_up (allEff_ioDelete rfl) fun _ => ih n
        · simp only [Node.seal, Prog.bind_eq, Prog.bind_assoc, Prog.pure_eq, Prog.ret_bind]
          refine fresh_encrypt L fun k m => fresh_ioUpdate [k.1, m.1] le_rfl (node_made L hix hk kw _ _ _ _) ?_
          exact fresh_bind handsOut_up (allEff_ofPanic _) fun _ => fresh_bind handsOut_up (allEff_ioDelete rfl) fun _ => ih n
      · exact ih next

include hix hk L in
theorem freshP_index (hi : ∀ t, AllEff NoSend (i.idProvider t)) (fuel : Nat) (c : IxCall) :
    FreshP P keys conf ((ixProg P i fuel c).bind fun _ => .ret none) D := by
  cases c with
  | add t kw x =>
    simp only [ixProg, SecureIndex.add, Prog.bind_eq, Prog.bind_assoc, gtc_eq L hk, Prog.ret_bind, Node.seal, Prog.pure_eq]
    refine fresh_bind handsOut_up (allEff_ixVerifyAccess (hi t)) fun _ => fresh_bind handsOut_up (allEff_getLastNodeLoop (fun _ => rfl) _ _ _ _) fun last =>
      fresh_bind handsOut_up (allEff_ofPanic _) fun label => fresh_encrypt L fun k m => ?_
    exact fresh_ioPut [k.1, m.1] le_rfl (node_made L hix hk kw _ _ _ _) (freshP_none _)
  | search t kw =>
    refine freshP_quiet ?_ D
    exact AllEff.bind (AllEff.bind (allEff_ixVerifyAccess (hi t)) fun _ => AllEff.bind (allEff_getTaggerAndCryptor kw) fun _ =>
      allEff_searchLoop (fun _ => rfl) _ _ _ _ _) fun _ => trivial
  | delete t kw x =>
    simp only [ixProg, SecureIndex.delete, Prog.bind_eq, Prog.bind_assoc, gtc_eq L hk, Prog.ret_bind]
    exact fresh_bind handsOut_up (allEff_ixVerifyAccess (hi t)) fun _ => freshP_deleteLoop L hix hk kw x fuel _

end

section
variable (hu : s.userCryptor.kwp = conf.uek) (hg : s.groupCryptor.kwp = conf.gek) (ht : s.tokenCryptor.kwp = conf.tek)

include L hu in
theorem freshP_putUser {k : Unit → Prog (Option Out)} (uid : GoString) (u : User) (up : Bool) (hk : FreshP P keys conf (k ()) D) :
    FreshP P keys conf ((s.putUser P uid u up).bind k) D := by
  simp only [Standalone.putUser, User.seal, Prog.bind_eq, Prog.bind_assoc, Prog.pure_eq, Prog.ret_bind]
  refine fresh_encrypt L fun key n => ?_
  have hm : ∀ a t, MadeFrom P keys conf
      (.record dtUser (SealedUser.toJ ⟨uid, some (gcmBox P key.1 n.1 a t), some (kwpBox P s.userCryptor.kwp key.1)⟩).render) [key.1, n.1] :=
    fun a t => ⟨_, _, rfl, (user_doc L _).1, .inr ⟨_, .inr (.inl ⟨rfl, hu⟩), (user_doc L _).2⟩⟩
  cases up
  · exact fresh_ioPut [key.1, n.1] le_rfl (hm _ _) hk
  · exact fresh_ioUpdate [key.1, n.1] le_rfl (hm _ _) hk

include L hg in
theorem freshP_putGroup {k : Unit → Prog (Option Out)} (gid : GoString) (g : Group) (hk : FreshP P keys conf (k ()) D) :
    FreshP P keys conf ((s.putGroup P gid g).bind k) D := by
  simp only [Standalone.putGroup, Group.seal, Prog.bind_eq, Prog.bind_assoc, Prog.pure_eq, Prog.ret_bind]
  refine fresh_encrypt L fun key n => ?_
  exact fresh_ioPut [key.1, n.1] le_rfl ⟨_, _, rfl, (group_doc L _).1, .inr ⟨_, .inr (.inr (.inl ⟨rfl, hg⟩)), (group_doc L _).2⟩⟩ hk

theorem noSend_identity (t : GoString) : AllEff NoSend (s.getIdentity P t) :=
  allEff_getIdentity (Q := NoSend) rfl (fun _ => rfl) (fun _ => rfl) t

/-- Making a password leaves its random bytes at hand. -/
theorem fresh_password {k : GoString × Bytes → Prog (Option Out)}
    (hk : ∀ (r : BytesN 32) (sh : Bytes), FreshP P keys conf (k (b64Enc true r.1, sh)) (([r.1] : List Bytes) + D)) :
    FreshP P keys conf ((generatePassword P).bind k) D := by
  simp only [generatePassword, Prog.bind_eq, Prog.bind_assoc, Prog.pure_eq, Prog.ret_bind]
  exact fresh_rand fun r => fresh_bind handsOut_up (allEff_rand rfl) fun salt => hk r _

theorem password_out (r : BytesN 32) (D : Multiset Bytes) :
    FreshP P keys conf (.ret (some (.password (b64Enc true r.1)))) ((([r.1] : List Bytes) : Multiset Bytes) + D) := by
  rintro x ⟨⟩
  exact ⟨[r.1], Multiset.le_add_right _ _, _, r.2, rfl, rfl⟩

include L hu hg ht in
theorem freshP_dir (c : DirCall) : FreshP P keys conf (outProg P d i s (.dir c)) D := by
  cases c with
  | newUser sc =>
    simp only [outProg, Standalone.newUser, newUser, Prog.bind_eq, Prog.bind_assoc, Prog.pure_eq, Prog.ret_bind]
    refine fresh_bind handsOut_up (allEff_newV4 fun _ => rfl) fun uid => fresh_password fun r sh => ?_
    exact freshP_putUser L hu _ _ _ (password_out r D)
  | loginUser u p =>
    simp only [outProg, Standalone.loginUser, newToken, Prog.bind_eq, Prog.bind_assoc, Prog.pure_eq, Prog.ret_bind]
    refine fresh_bind handsOut_up (AllEff.mapErr (allEff_getUser rfl)) fun user => fresh_bind handsOut_up (AllEff.mapErr (allEff_authenticate _ _)) fun _ =>
      fresh_bind handsOut_up (allEff_now rfl) fun now => Fresh.mapErr ?_
    simp only [Token.seal, Prog.bind_eq, Prog.bind_assoc, Prog.pure_eq, Prog.ret_bind]
    refine fresh_encrypt L fun k n => ?_
    rintro x ⟨⟩
    exact ⟨[k.1, n.1], Multiset.le_add_right _ _, _, _, _, b64Dec_enc _ _, rfl, (token_doc L _).1, .inr (ht ▸ (token_doc L _).2)⟩
  | changePassword u p =>
    simp only [outProg, Standalone.changeUserPassword, Prog.bind_eq, Prog.bind_assoc, Prog.pure_eq, Prog.ret_bind]
    refine fresh_bind handsOut_up (AllEff.mapErr (allEff_getUser rfl)) fun user => Fresh.mapErr ?_
    simp only [User.changePassword, Prog.bind_eq, Prog.bind_assoc, Prog.pure_eq, Prog.ret_bind]
    refine fresh_bind handsOut_up (allEff_authenticate _ _) fun _ => fresh_password fun r sh => ?_
    exact freshP_putUser L hu _ _ _ (password_out r D)
  | newGroup t sc =>
    simp only [outProg, dirProg, Standalone.newGroup, Prog.bind_eq, Prog.bind_assoc, Prog.pure_eq, Prog.ret_bind]
    refine fresh_bind handsOut_up (noSend_identity t) fun id => fresh_bind handsOut_up (allEff_newV4 fun _ => rfl) fun gid => freshP_putGroup L hg _ _ ?_
    exact fresh_bind handsOut_up (allEff_getUser rfl) fun _ => fresh_bind handsOut_up (allEff_ofPanic _) fun _ => freshP_putUser L hu _ _ _ (freshP_none _)
  | addUser t u gs =>
    simp only [outProg, dirProg, Standalone.addUserToGroups, Prog.bind_eq, Prog.bind_assoc, Prog.ret_bind]
    exact fresh_bind handsOut_up (noSend_identity t) fun id => fresh_bind handsOut_up (allEff_checkMembership _ _) fun _ =>
      fresh_bind handsOut_up (allEff_getUser rfl) fun _ => fresh_bind handsOut_up (allEff_ofPanic _) fun _ => freshP_putUser L hu _ _ _ (freshP_none _)
  | removeUser t u gs =>
    simp only [outProg, dirProg, Standalone.removeUserFromGroups, Prog.bind_eq, Prog.bind_assoc, Prog.ret_bind]
    exact fresh_bind handsOut_up (noSend_identity t) fun id => fresh_bind handsOut_up (allEff_checkMembership _ _) fun _ =>
      fresh_bind handsOut_up (allEff_getUser rfl) fun _ => freshP_putUser L hu _ _ _ (freshP_none _)
  | deleteUser t u =>
    refine freshP_quiet ?_ D
    exact AllEff.bind (AllEff.bind (noSend_identity t) fun _ => allEff_ioDelete rfl) fun _ => trivial
  | getIdentity t =>
    refine freshP_quiet ?_ D
    exact AllEff.bind (noSend_identity t) fun _ => trivial

end
end

/-! ## C84 -/

section
variable {P : Prims} (L : P.Laws) {keys : Keys} {conf : StandaloneConfig} {idp idp' : IdProvider} {d : D1} {i : SecureIndex} {s : Standalone}

include L in
theorem freshP_api (hd : newD1 (.ok keys) idp = .ok d) (hx : newSecureIndex (.ok keys) idp' = .ok i) (hs : newStandalone conf = .ok s)
    (hi : ∀ t, AllEff NoSend (idp t)) (hi' : ∀ t, AllEff NoSend (idp' t)) (c : ApiCall) (D : Multiset Bytes) :
    FreshP P keys conf (outProg P d i s c) D := by
  have hd' := (C22_new (.ok keys) idp).2.2 keys rfl d hd
  rw [C22_newSecureIndex] at hx
  rw [C22_newStandalone] at hs
  split at hx <;> cases hx
  rename_i hk
  split at hs <;> cases hs
  subst hd'
  cases c with
  | d1 c => exact freshP_call L rfl hi c
  | createToken p => exact freshP_createToken L rfl p
  | tokenContents t => exact freshP_quiet (p := (t.unseal P _).bind fun x => .ret x.plaintext) (AllEff.bind (allEff_tokenUnseal (Q := NoSend) rfl _ _) fun _ => trivial) D
  | index fuel c => exact freshP_index L rfl hk hi' fuel c
  | dir c => exact freshP_dir L rfl rfl rfl c

include L in
/-- C84: let any number of calls of the library run interleaved in any way, some cut off, against any IO Provider, random source and clock.  Then
every record sent, every token and every password is made of its own answers of the random source: data key and nonce for a record and a token,
the 32 bytes of a password.  No answer is used twice, and each data key is wrapped under the key for that type of record. -/
theorem C84_drawn_for_one_use (hd : newD1 (.ok keys) idp = .ok d) (hx : newSecureIndex (.ok keys) idp' = .ok i) (hs : newStandalone conf = .ok s)
    (hi : ∀ t, AllEff NoSend (idp t)) (hi' : ∀ t, AllEff NoSend (idp' t)) (calls : Nat → ApiCall) (tr : List (Nat × Step))
    (ha : ∀ n, Acts (outProg P d i s (calls n)) (own n tr)) :
    ∃ uss : List (List Bytes), List.Forall₂ (MadeFrom P keys conf) (outsIn tr) uss ∧ uss.flatten.Subperm (drawnIn tr) := by
  obtain ⟨uss, h1, h2⟩ := fresh_together tr (fun n => outProg P d i s (calls n)) 0
    (fun n => freshP_api L hd hx hs hi hi' (calls n) _) ha
  exact ⟨uss, h1, by simpa using h2⟩

theorem nodup_of_subperm {l l' : List Bytes} (h : l.Subperm l') (hn : l'.Nodup) : l.Nodup := by
  obtain ⟨m, h1, h2⟩ := h
  exact h1.nodup_iff.mp (h2.nodup hn)

/-- Keys, nonces and passwords are of at least 12 bytes. -/
theorem madeFrom_length {o : Out} {us : List Bytes} (h : MadeFrom P keys conf o us) : ∀ x ∈ us, 12 ≤ x.length := by
  cases o with
  | record dt b =>
    obtain ⟨k, n, rfl, ⟨h1, h2, -⟩, -⟩ := h
    simp [h1, h2]
  | token s =>
    obtain ⟨b, k, n, -, rfl, ⟨h1, h2, -⟩, -⟩ := h
    simp [h1, h2]
  | password s =>
    obtain ⟨r, h1, rfl, -⟩ := h
    simp [h1]

theorem nodup_made {os : List Out} {uss : List (List Bytes)} {l : List Bytes} (h : List.Forall₂ (MadeFrom P keys conf) os uss)
    (hs : uss.flatten.Subperm l) (hn : (l.filter (12 ≤ ·.length)).Nodup) : uss.flatten.Nodup := by
  have hl : ∀ us ∈ uss, ∀ x ∈ us, 12 ≤ x.length := by
    intro us hus
    induction h with
    | nil => simp at hus
    | cons h1 _ ih =>
      rcases List.mem_cons.mp hus with rfl | hus
      · exact madeFrom_length h1
      · exact ih ((List.sublist_append_right _ _).subperm.trans hs) hus
  have hf : uss.flatten.filter (12 ≤ ·.length) = uss.flatten := by
    refine List.filter_eq_self.mpr fun x hx => ?_
    obtain ⟨us, h1, h2⟩ := List.mem_flatten.mp hx
    exact decide_eq_true (hl us h1 x h2)
  exact nodup_of_subperm (hf ▸ hs.filter _) hn

theorem flatten_apart {uss : List (List Bytes)} (h : uss.flatten.Nodup) {a b : Nat} (hab : a ≠ b) {us vs : List Bytes} (ha : uss[a]? = some us)
    (hb : uss[b]? = some vs) : ∀ x ∈ us, x ∉ vs := by
  rw [List.nodup_flatten] at h
  have key : ∀ a b : Nat, a < b → ∀ us vs, uss[a]? = some us → uss[b]? = some vs → List.Disjoint us vs := by
    intro a b hab us vs ha hb
    obtain ⟨ha1, rfl⟩ := List.getElem?_eq_some_iff.mp ha
    obtain ⟨hb1, rfl⟩ := List.getElem?_eq_some_iff.mp hb
    exact List.pairwise_iff_getElem.mp h.2 a b ha1 hb1 hab
  intro x hx hy
  rcases Nat.lt_or_gt_of_ne hab with hl | hl
  · exact key a b hl _ _ ha hb hx hy
  · exact key b a hl _ _ hb ha hy hx

theorem madeFrom_cipher {o : Out} {us : List Bytes} {c : Bytes} (h : MadeFrom P keys conf o us) (hc : cipherOf P o = some c) :
    ∃ k n, us = [k, n] ∧ n = c.drop (c.length - 12) := by
  have drop : ∀ (k n aad t : Bytes), n.length = 12 → n = (P.gcmSeal k n aad t ++ n).drop ((P.gcmSeal k n aad t ++ n).length - 12) := by
    intro k n aad t hn
    rw [List.length_append, hn, Nat.add_sub_cancel, List.drop_left' rfl]
  cases o with
  | record dt b =>
    obtain ⟨k, n, rfl, ⟨_, hn, aad, t, hb⟩, _⟩ := h
    rw [cipherOf, hb] at hc
    cases hc
    exact ⟨k, n, rfl, drop _ _ _ _ hn⟩
  | token s =>
    obtain ⟨b, k, n, hs, rfl, ⟨_, hn, aad, t, hb⟩, _⟩ := h
    rw [cipherOf, hs, Option.bind_some, hb] at hc
    cases hc
    exact ⟨k, n, rfl, drop _ _ _ _ hn⟩
  | password s => cases hc

include L in
theorem madeFrom_wrapped {o : Out} {us : List Bytes} {w : Bytes} (h : MadeFrom P keys conf o us) (hw : wrappedOf P o = some w)
    (ho : ∀ b, o ≠ .record dtObject b) : ∃ k n, us = [k, n] ∧ ∃ kek, WrapsOut P keys conf o kek ∧ kwpUnwrap P kek w = .ok k := by
  have un : ∀ kek b (k : Bytes), k.length = 32 → KeyIn P kek b k → bytesField P b nWrappedKey = some w → kwpUnwrap P kek w = .ok k := by
    rintro kek b k hk ⟨w', h1, h2⟩ h3
    rw [h1] at h3
    cases h3
    rw [kwpWrap_box L kek k hk] at h2
    cases h2
    exact kwpUnwrap_box L kek k hk
  cases o with
  | record dt b =>
    obtain ⟨k, n, rfl, ⟨hl, _⟩, rfl | ⟨kek, hx, hk⟩⟩ := h
    · exact absurd rfl (ho b)
    · exact ⟨k, n, rfl, kek, hx, un kek b k hl hk hw⟩
  | token s =>
    obtain ⟨b, k, n, hs, rfl, ⟨hl, _⟩, hk⟩ := h
    rw [wrappedOf, hs, Option.bind_some] at hw
    rcases hk with hk | hk
    · exact ⟨k, n, rfl, _, .inl rfl, un _ b k hl hk hw⟩
    · exact ⟨k, n, rfl, _, .inr rfl, un _ b k hl hk hw⟩
  | password s => cases hw

theorem made_at {os : List Out} {uss : List (List Bytes)} (h : List.Forall₂ (MadeFrom P keys conf) os uss) {a : Nat} {o : Out} (ha : os[a]? = some o) :
    ∃ us, uss[a]? = some us ∧ MadeFrom P keys conf o us := by
  induction h generalizing a with
  | nil => simp at ha
  | cons h1 _ ih =>
    cases a with
    | zero => cases ha; exact ⟨_, rfl, h1⟩
    | succ a => exact ih ha

section
variable (hd : newD1 (.ok keys) idp = .ok d) (hx : newSecureIndex (.ok keys) idp' = .ok i) (hs : newStandalone conf = .ok s)
  (hi : ∀ t, AllEff NoSend (idp t)) (hi' : ∀ t, AllEff NoSend (idp' t)) {calls : Nat → ApiCall} {tr : List (Nat × Step)}
  (ha : ∀ n, Acts (outProg P d i s (calls n)) (own n tr)) (hr : ((drawnIn tr).filter (12 ≤ ·.length)).Nodup)
include L hd hx hs hi hi' ha hr

/-- C84: as long as the random source does not repeat itself (in answers of 12 or more bytes), no two ciphertexts ever sent or handed out end in the same nonce. -/
theorem C84_no_nonce_twice {a b : Nat} (hab : a ≠ b) {o o' : Out} (ho : (outsIn tr)[a]? = some o) (ho' : (outsIn tr)[b]? = some o') {c c' : Bytes}
    (hc : cipherOf P o = some c) (hc' : cipherOf P o' = some c') : c.drop (c.length - 12) ≠ c'.drop (c'.length - 12) := by
  obtain ⟨uss, h1, h2⟩ := C84_drawn_for_one_use L hd hx hs hi hi' calls tr ha
  have hn := nodup_made h1 h2 hr
  obtain ⟨us, u1, u2⟩ := made_at h1 ho
  obtain ⟨vs, v1, v2⟩ := made_at h1 ho'
  obtain ⟨k, n, rfl, hk⟩ := madeFrom_cipher u2 hc
  obtain ⟨k', n', rfl, hk'⟩ := madeFrom_cipher v2 hc'
  rw [← hk, ← hk']
  rintro rfl
  exact flatten_apart hn hab u1 v1 n (by simp) (by simp)

/-- C84: nor do two records or tokens carry the same data key, under whatever key it is wrapped. -/
theorem C84_no_key_twice {a b : Nat} (hab : a ≠ b) {o o' : Out} (ho : (outsIn tr)[a]? = some o) (ho' : (outsIn tr)[b]? = some o') {w w' : Bytes}
    (hw : wrappedOf P o = some w) (hw' : wrappedOf P o' = some w') (hn : ∀ b, o ≠ .record dtObject b) (hn' : ∀ b, o' ≠ .record dtObject b) :
    ∃ kek kek' k k', WrapsOut P keys conf o kek ∧ WrapsOut P keys conf o' kek' ∧ kwpUnwrap P kek w = .ok k ∧ kwpUnwrap P kek' w' = .ok k' ∧ k ≠ k' := by
  obtain ⟨uss, h1, h2⟩ := C84_drawn_for_one_use L hd hx hs hi hi' calls tr ha
  obtain ⟨us, u1, u2⟩ := made_at h1 ho
  obtain ⟨vs, v1, v2⟩ := made_at h1 ho'
  obtain ⟨k, n, rfl, kek, x1, x2⟩ := madeFrom_wrapped L u2 hw hn
  obtain ⟨k', n', rfl, kek', y1, y2⟩ := madeFrom_wrapped L v2 hw' hn'
  refine ⟨kek, kek', k, k', x1, y1, x2, y2, ?_⟩
  rintro rfl
  exact flatten_apart (nodup_made h1 h2 hr) hab u1 v1 k (by simp) (by simp)

/-- C84: no password is handed out twice. -/
theorem C84_no_password_twice {a b : Nat} (hab : a ≠ b) {x x' : GoString} (ho : (outsIn tr)[a]? = some (.password x))
    (ho' : (outsIn tr)[b]? = some (.password x')) : x ≠ x' := by
  obtain ⟨uss, h1, h2⟩ := C84_drawn_for_one_use L hd hx hs hi hi' calls tr ha
  obtain ⟨us, u1, r, _, rfl, rfl⟩ := made_at h1 ho
  obtain ⟨vs, v1, r', _, rfl, rfl⟩ := made_at h1 ho'
  intro e
  cases b64Enc_inj true e
  exact flatten_apart (nodup_made h1 h2 hr) hab u1 v1 r (by simp) (by simp)

end
end

/-- An Identity Provider that only reads, such as Standalone. -/
example (P : Prims) (s : Standalone) : ∀ t, AllEff NoSend (s.getIdentity P t) := noSend_identity

/-- A byte string for examples. -/
def same (n : Nat) (b : UInt8) : BytesN n := ⟨List.replicate n b, by simp⟩

theorem acts_encrypt {P : Prims} (L : P.Laws) {c : Cryptor} {p a : J} {k : Bytes × Bytes → Prog (Option Out)} {l : List Step} (key : BytesN 32)
    (nonce : BytesN 12) (h : Acts (k (kwpBox P c.kwp key.1, gcmBox P key.1 nonce.1 a.render p.render)) l) : Acts ((c.encrypt P p a).bind k)
      (.eff ⟨.rand 32, (some key : Option (BytesN 32))⟩ :: .eff ⟨.rand 12, (some nonce : Option (BytesN 12))⟩ :: l) := by
  rw [Cryptor.encrypt_eq L, bind_assoc]
  exact .op _ _ _ _ (.op _ _ _ _ h)

/-- Two `CreateToken` calls and a `NewUser` call interleaved: two tokens, a user record and a password leave the library, made of nine different answers. -/
example : let keys : Keys := ⟨List.replicate 32 1, List.replicate 32 2, List.replicate 32 3, List.replicate 32 4⟩
    let conf : StandaloneConfig := ⟨List.replicate 32 5, List.replicate 32 6, List.replicate 32 7⟩
    ∃ d i s, newD1 (.ok keys) (fun _ => .err .idNotAuthenticated) = .ok d ∧ newSecureIndex (.ok keys) (fun _ => .err .idNotAuthenticated) = .ok i ∧
      newStandalone conf = .ok s ∧
      ∃ (calls : Nat → ApiCall) (tr : List (Nat × Step)), (∀ n, Acts (outProg toyPrims d i s (calls n)) (own n tr)) ∧ (outsIn tr).length = 4 ∧
        (drawnIn tr).Nodup ∧ (drawnIn tr).length = 9 := by
  intro keys conf
  refine ⟨_, _, _, rfl, rfl, rfl, ?_⟩
  generalize hd : (D1.mk _ _ _ _) = d
  generalize hi : (SecureIndex.mk _ _) = i
  generalize hs : (Standalone.mk _ _ _) = s
  have ht : ∀ (k : BytesN 32) (n : BytesN 12), ∃ x, Acts (outProg toyPrims d i s (.createToken none)) [.eff ⟨.now, (⟨5, 0⟩ : GoTime)⟩,
      .eff ⟨.rand 32, (some k : Option (BytesN 32))⟩, .eff ⟨.rand 12, (some n : Option (BytesN 12))⟩, .done (some (.token x))] := by
    intro k n
    have e : outProg toyPrims d i s (.createToken none) = timeNow.bind fun now =>
        (d.tokenCryptor.encrypt toyPrims (.ofBytes none) (.ofTime toyPrims (now.add tokenValidity))).bind fun r =>
          .ret (some (.token (SealedToken.string toyPrims ⟨now.add tokenValidity, some r.2, some r.1⟩))) := by
      simp only [outProg, D1.createToken, newToken, Token.seal, Prog.bind_eq, Prog.bind_assoc, Prog.pure_eq, Prog.ret_bind]
    rw [e]
    exact ⟨_, .op _ _ _ _ (acts_encrypt toyLaws k n (.done _))⟩
  have hu : ∃ id b pw, Acts (outProg toyPrims d i s (.dir (.newUser []))) [.eff ⟨.rand 16, (some (same 16 1) : Option (BytesN 16))⟩,
      .eff ⟨.rand 32, (some (same 32 3) : Option (BytesN 32))⟩, .eff ⟨.rand 8, (some (same 8 1) : Option (BytesN 8))⟩,
      .eff ⟨.rand 32, (some (same 32 4) : Option (BytesN 32))⟩, .eff ⟨.rand 12, (some (same 12 3) : Option (BytesN 12))⟩,
      .eff ⟨.put id dtUser b, (.ok () : Except IoErr Unit)⟩, .done (some (.password pw))] := by
    have e : outProg toyPrims d i s (.dir (.newUser [])) = (randBytes 16).bind fun u => (randBytes 32).bind fun p => (randBytes 8).bind fun salt =>
        (s.userCryptor.encrypt toyPrims (User.toJ ⟨some (salt.1 ++ toyPrims.pbkdf2 (b64Enc true p.1) salt.1), scopeUnion [], some []⟩)
          (.str (uuidText (mkV4 u)))).bind fun r => (ioPut (onAlreadyExists .userAlreadyExists) (uuidText (mkV4 u)) dtUser
            (SealedUser.toJ ⟨uuidText (mkV4 u), some r.2, some r.1⟩).render).bind fun _ => .ret (some (.password (b64Enc true p.1))) := by
      simp only [outProg, Standalone.newUser, newUser, newV4, generatePassword, Standalone.putUser, User.seal, Prog.bind_eq, Prog.bind_assoc, Prog.pure_eq,
        Prog.ret_bind]
      rfl
    rw [e]
    exact ⟨_, _, _, .op _ _ _ _ (.op _ _ _ _ (.op _ _ _ _ (acts_encrypt toyLaws _ _ (.op _ _ _ _ (.done _)))))⟩
  obtain ⟨x, hx⟩ := ht (same 32 1) (same 12 1)
  obtain ⟨y, hy⟩ := ht (same 32 2) (same 12 2)
  obtain ⟨id, b, pw, hu⟩ := hu
  refine ⟨fun n => if n = 0 then .dir (.newUser []) else .createToken none, [
    (0, .eff ⟨.rand 16, (some (same 16 1) : Option (BytesN 16))⟩), (1, .eff ⟨.now, (⟨5, 0⟩ : GoTime)⟩), (2, .eff ⟨.now, (⟨5, 0⟩ : GoTime)⟩),
    (1, .eff ⟨.rand 32, (some (same 32 1) : Option (BytesN 32))⟩), (2, .eff ⟨.rand 32, (some (same 32 2) : Option (BytesN 32))⟩),
    (0, .eff ⟨.rand 32, (some (same 32 3) : Option (BytesN 32))⟩), (0, .eff ⟨.rand 8, (some (same 8 1) : Option (BytesN 8))⟩),
    (1, .eff ⟨.rand 12, (some (same 12 1) : Option (BytesN 12))⟩), (2, .eff ⟨.rand 12, (some (same 12 2) : Option (BytesN 12))⟩),
    (1, .done (some (.token x))), (2, .done (some (.token y))),
    (0, .eff ⟨.rand 32, (some (same 32 4) : Option (BytesN 32))⟩), (0, .eff ⟨.rand 12, (some (same 12 3) : Option (BytesN 12))⟩),
    (0, .eff ⟨.put id dtUser b, (.ok () : Except IoErr Unit)⟩), (0, .done (some (.password pw)))], ?_, rfl, ?_, rfl⟩
  · intro n
    match n with
    | 0 => exact hu
    | 1 => exact hx
    | 2 => exact hy
    | n + 3 => simpa [own] using Acts.stop _
  · show List.Nodup [(same 16 1).1, (same 32 1).1, (same 32 2).1, (same 32 3).1, (same 8 1).1, (same 12 1).1, (same 12 2).1, (same 32 4).1, (same 12 3).1]
    decide +kernel

end D1
