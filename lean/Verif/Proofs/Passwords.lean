import Verif.Spec.Passwords
import Verif.Proofs.Trial
import Verif.Proofs.Data
/-!
# Reducing the game about passwords

The game is played by a tree that knows passwords only by the programs that made them.  The oracle makes passwords, compares
them with hashes, and seals and opens user records.  In three steps (key wrapping, forgeries, encryption) this becomes an oracle of
which the answers do not depend on the passwords, except for the comparisons.
-/
namespace D1
open Prog

/-! ## Passwords that are not known -/

/-- The passwords that were made, before they are encoded. -/
abbrev Tape : Type := Nat → Option (BytesN passwordLength)

/-- A password: known, or made by a program. -/
inductive Word where
  | known (p : GoString)
  | made (i : Nat)
  deriving DecidableEq

/-- A salt and hash: as it was read, or made from a password. -/
inductive Src where
  | read (h : NBytes)
  | made (i : Nat) (salt : BytesN saltLength)

/-- A user record. -/
structure SUser where
  src : Src
  scopes : Scope
  groups : GoSet

/-- The text of a password. -/
def passwordText (b : BytesN passwordLength) : GoString := b64Enc true b.1

def Word.at (ω : Tape) : Word → GoString
  | known p => p
  | made i => ((ω i).map passwordText).getD []

def Src.at (P : Prims) (ω : Tape) : Src → NBytes
  | read h => h
  | made i salt => (ω i).map fun b => salt.1 ++ P.pbkdf2 (passwordText b) salt.1

def SUser.at (P : Prims) (ω : Tape) (u : SUser) : User := ⟨u.src.at P ω, u.scopes, u.groups⟩

/-- The record as it is read again. -/
def SUser.san (u : SUser) : SUser := { u with groups := u.groups.map sanList }

theorem SUser.ofJ_at (P : Prims) (ω : Tape) (u : SUser) : User.ofJ (u.at P ω).toJ.san = some (u.san.at P ω) := User.ofJ_toJ _

/-- Questions of the tree. -/
inductive HAsk where
  | issue (j : Nat)
  | reveal (j : Nat)
  | test (w : Word) (h : Src)
  | seal (u : SUser) (aad : Bytes)
  | open (aad w c : Bytes)

def HAsk.Ans : HAsk → Type
  | .issue _ => Unit
  | .reveal _ => GoString
  | .test _ _ => Option Bool
  | .seal _ _ => Bytes × Bytes
  | .open _ _ _ => Except Err SUser

abbrev HAdv : Type := OAdv HAsk HAsk.Ans

/-- A box that was made. -/
structure SRec where
  aad : Bytes
  w : Bytes
  c : Bytes
  u : SUser

/-- What is in a box that was made. -/
def madeBy (T : List SRec) (aad w c : Bytes) : Option SUser :=
  (T.find? fun e => e.aad = aad ∧ e.w = w ∧ e.c = c).map fun e => e.u.san

theorem madeBy_spec {T : List SRec} {aad w c : Bytes} {u : SUser} (h : madeBy T aad w c = some u) :
    ∃ e ∈ T, e.aad = aad ∧ e.w = w ∧ e.c = c ∧ u = e.u.san := by
  obtain ⟨e, he, rfl⟩ := Option.map_eq_some_iff.mp h
  have := List.find?_some he
  simp only [decide_eq_true_eq] at this
  exact ⟨e, List.mem_of_find?_eq_some he, this.1, this.2.1, this.2.2, rfl⟩

/-- A record that was read from a box of somebody else. -/
def foreign : Except Err User → Except Err SUser
  | .error e => .error e
  | .ok u => .ok ⟨.read u.saltAndHash, u.scopes, u.groups⟩

/-- The tree with passwords drawn, which asks only about boxes. -/
def toBoxes (P : Prims) : HAdv → Tape → List SRec → IAdv
  | .done b, _, _ => .done b
  | .toss n k, ω, T => .toss n fun x => toBoxes P (k x) ω T
  | .ask (.issue j) k, ω, T => .toss passwordLength fun b => toBoxes P (k ()) (Function.update ω j (some b)) T
  | .ask (.reveal j) k, ω, T => toBoxes P (k ((Word.made j).at ω)) ω T
  | .ask (.test w h) k, ω, T => toBoxes P (k (comparePassword P (w.at ω) (h.at P ω).bytes)) ω T
  | .ask (.seal u aad) k, ω, T => .ask (.seal (u.at P ω).toJ aad) fun (r : Bytes × Bytes) => toBoxes P (k r) ω (⟨aad, r.1, r.2, u⟩ :: T)
  | .ask (.open aad w c) k, ω, T => match madeBy T aad w c with
    | some u => toBoxes P (k (.ok u)) ω T
    | none => .ask (.open aad w c) fun r => toBoxes P (k (foreign (readAs User.ofJ r))) ω T

/-! ## The attack on the encryption -/

/-- What is answered for a box that was not made. -/
def refusal (T : List SRec) (w : Bytes) : Err := if T.any fun e => e.w = w then .aead else .kwp

/-- The attack on AES-GCM: the oracle seals the records, or as many zeros. -/
def toBlank (P : Prims) (kek : BytesN 32) : HAdv → Tape → List SRec → OAdv SealAsk SealAsk.Ans
  | .done b, _, _ => .done b
  | .toss n k, ω, T => .toss n fun x => toBlank P kek (k x) ω T
  | .ask (.issue j) k, ω, T => .toss passwordLength fun b => toBlank P kek (k ()) (Function.update ω j (some b)) T
  | .ask (.reveal j) k, ω, T => toBlank P kek (k ((Word.made j).at ω)) ω T
  | .ask (.test w h) k, ω, T => toBlank P kek (k (comparePassword P (w.at ω) (h.at P ω).bytes)) ω T
  | .ask (.seal u aad) k, ω, T =>
    .ask (.seal ⟨(u.at P ω).toJ.render, List.replicate (u.at P ω).toJ.render.length 0, aad, by simp⟩) fun (r : BytesN 12 × Bytes) =>
      .toss 32 fun other => toBlank P kek (k (wrapped P kek other, r.2 ++ r.1.1)) ω (⟨aad, wrapped P kek other, r.2 ++ r.1.1, u⟩ :: T)
  | .ask (.open aad w c) k, ω, T => match madeBy T aad w c with
    | some u => toBlank P kek (k (.ok u)) ω T
    | none => toBlank P kek (k (.error (refusal T w))) ω T

/-- The same boxes. -/
def SameKeys (T : List (IRec (BytesN 32))) (T' : List SRec) : Prop :=
  T.map (fun e => (e.aad, e.w, e.c)) = T'.map fun e => (e.aad, e.w, e.c)

theorem SameKeys.cons {T : List (IRec (BytesN 32))} {T' : List SRec} (h : SameKeys T T') (aad w c : Bytes) (m : J) (key : BytesN 32)
    (u : SUser) : SameKeys (⟨aad, w, c, m, key⟩ :: T) (⟨aad, w, c, u⟩ :: T') := by
  simp only [SameKeys, List.map_cons] at h ⊢
  rw [h]

theorem SameKeys.unmade {T : List (IRec (BytesN 32))} {T' : List SRec} (h : SameKeys T T') {aad w c : Bytes} :
    madeBy T' aad w c = none → madeOf T aad w c = none := by
  induction T generalizing T' with
  | nil => intro; rfl
  | cons e T ih =>
    cases T' with
    | nil => exact nomatch h
    | cons e' T' =>
      simp only [SameKeys, List.map_cons, List.cons.injEq, Prod.mk.injEq] at h
      obtain ⟨⟨h1, h2, h3⟩, h4⟩ := h
      have ih := ih h4
      simp only [madeBy, madeOf, List.find?_cons, h1, h2, h3] at ih ⊢
      cases decide (e'.aad = aad ∧ e'.w = w ∧ e'.c = c) with
      | true => intro h; exact nomatch h
      | false => exact ih

theorem SameKeys.refusal {T : List (IRec (BytesN 32))} {T' : List SRec} (h : SameKeys T T') (w : Bytes) :
    ((givenOut T).lookup w = none ∧ refusal T' w = .kwp) ∨ ∃ key, (givenOut T).lookup w = some key ∧ refusal T' w = .aead := by
  induction T generalizing T' with
  | nil =>
    cases T' with
    | nil => exact .inl ⟨rfl, rfl⟩
    | cons e' T' => exact nomatch h
  | cons e T ih =>
    cases T' with
    | nil => exact nomatch h
    | cons e' T' =>
      simp only [SameKeys, List.map_cons, List.cons.injEq, Prod.mk.injEq] at h
      obtain ⟨⟨h1, h2, h3⟩, h4⟩ := h
      have ih := ih h4
      simp only [givenOut, List.map_cons, List.lookup_cons, D1.refusal, List.any_cons, h2] at ih ⊢
      by_cases hw : e'.w = w
      · exact .inr ⟨e.key, by simp [hw], by simp [hw]⟩
      · have : (w == e'.w) = false := by simpa using Ne.symm hw
        simp only [this, hw, decide_false, Bool.false_or]
        exact ih

theorem play_toBlank {P : Prims} (L : P.Laws) (kek : BytesN 32) (t : HAdv) :
    ∀ ω T T' s, SameKeys T T' → (toBlank P kek t ω T').play (sealOracle P false) s = (toBoxes P t ω T').play (boxShut P kek) T := by
  induction t with
  | done b => intros; rfl
  | toss n k ih => intro ω T T' s h; simp only [toBlank, toBoxes, OAdv.play]; congr 1; funext x; exact ih x ω T T' s h
  | ask q k ih =>
    intro ω T T' s h
    cases q with
    | issue j => simp only [toBlank, toBoxes, OAdv.play]; congr 1; funext x; exact ih _ _ T T' s h
    | reveal j => exact ih _ _ T T' s h
    | test w h' => exact ih _ _ T T' s h
    | «seal» u aad =>
      simp only [toBlank, toBoxes, OAdv.play, sealOracle, boxShut, boxSwap, PMF.bind_bind, PMF.pure_bind, wrapped_eq L, Bool.false_eq_true,
        if_false]
      congr 1; funext key
      rw [PMF.bind_comm]
      congr 1; funext other; congr 1; funext nonce
      exact ih _ _ _ _ _ (h.cons ..)
    | «open» aad w c =>
      simp only [toBlank, toBoxes]
      cases hm : madeBy T' aad w c with
      | some u => exact ih _ _ T T' s h
      | none =>
        simp only [OAdv.play, boxShut, PMF.pure_bind, h.unmade hm]
        rcases h.refusal w with ⟨h1, h2⟩ | ⟨key, h1, h2⟩
        · rw [h1, h2]; exact ih _ _ T T' s h
        · rw [h1, h2]; exact ih _ _ T T' s h

/-! ## Probabilities -/

theorem chance_pure_false : chance (PMF.pure false) = 0 := by simp [chance]

theorem chance_bind_le {α : Type} (p : PMF α) (f : α → PMF Bool) {c : ℝ} (h : ∀ x ∈ p.support, chance (f x) ≤ c) (hc : 0 ≤ c) :
    chance (p.bind f) ≤ c := by
  have key : (p.bind f) true ≤ ENNReal.ofReal c := by
    rw [PMF.bind_apply]
    calc ∑' a, p a * f a true ≤ ∑' a, p a * ENNReal.ofReal c := by
          refine ENNReal.tsum_le_tsum fun a => ?_
          by_cases ha : p a = 0
          · simp [ha]
          · refine mul_le_mul_right ?_ _
            refine (ENNReal.le_ofReal_iff_toReal_le (PMF.apply_ne_top _ _) hc).mpr (h a ?_)
            exact (PMF.mem_support_iff _ _).mpr ha
      _ = ENNReal.ofReal c := by rw [ENNReal.tsum_mul_right, PMF.tsum_coe, one_mul]
  exact (ENNReal.le_ofReal_iff_toReal_le (PMF.apply_ne_top _ _) hc).mp key

/-- Two experiments that are the same unless `C`. -/
theorem chance_bind_split {α : Type} (p : PMF α) (f g : α → PMF Bool) (C : α → Bool)
    (h : ∀ x ∈ p.support, C x = false → f x = g x) : chance (p.bind f) ≤ chance (p.map C) + chance (p.bind g) := by
  rw [chance, chance, chance, ← ENNReal.toReal_add (PMF.apply_ne_top _ _) (PMF.apply_ne_top _ _)]
  refine ENNReal.toReal_mono (ENNReal.add_ne_top.mpr ⟨PMF.apply_ne_top _ _, PMF.apply_ne_top _ _⟩) ?_
  rw [← PMF.bind_pure_comp, PMF.bind_apply, PMF.bind_apply, PMF.bind_apply, ← ENNReal.tsum_add]
  refine ENNReal.tsum_le_tsum fun a => ?_
  rw [← mul_add]
  by_cases ha : p a = 0
  · simp [ha]
  · refine mul_le_mul_right ?_ _
    cases hC : C a with
    | true =>
      refine (PMF.coe_le_one _ _).trans ?_
      simp [hC]
    | false => rw [h a ((PMF.mem_support_iff _ _).mpr ha) hC]; exact le_add_self

theorem bind_congr_support {α β : Type} (p : PMF α) {f g : α → PMF β} (h : ∀ x ∈ p.support, f x = g x) : p.bind f = p.bind g := by
  ext b
  rw [PMF.bind_apply, PMF.bind_apply]
  refine tsum_congr fun a => ?_
  by_cases ha : p a = 0
  · simp [ha]
  · rw [h a ((PMF.mem_support_iff _ _).mpr ha)]

/-! ## Drawing the passwords later -/

/-- The passwords `D` are drawn, the others are given. -/
noncomputable def tapes : List Nat → Tape → PMF Tape
  | [], ω => PMF.pure ω
  | j :: D, ω => (tapes D ω).bind fun ω' => (unif passwordLength).bind fun b => PMF.pure (Function.update ω' j (some b))

theorem tapes_support {D : List Nat} {ω ω' : Tape} (h : ω' ∈ (tapes D ω).support) :
    (∀ i, i ∉ D → ω' i = ω i) ∧ ∀ i ∈ D, ∃ b, ω' i = some b := by
  induction D generalizing ω' with
  | nil =>
    simp only [tapes, PMF.support_pure, Set.mem_singleton_iff] at h
    subst h
    exact ⟨fun _ _ => rfl, by simp⟩
  | cons j D ih =>
    simp only [tapes, PMF.mem_support_bind_iff, PMF.support_pure, Set.mem_singleton_iff] at h
    obtain ⟨ω1, h1, b, -, rfl⟩ := h
    obtain ⟨h2, h3⟩ := ih h1
    refine ⟨fun i hi => ?_, fun i hi => ?_⟩
    · rw [Function.update_of_ne (fun h : i = j => hi (h ▸ .head _)), h2 i fun h => hi (.tail _ h)]
    · by_cases hij : i = j
      · subst hij; exact ⟨b, Function.update_self ..⟩
      · rw [Function.update_of_ne hij]
        exact h3 i ((List.mem_cons.mp hi).resolve_left hij)

/-- One of the passwords can be drawn last. -/
theorem tapes_last {D : List Nat} {a : Nat} (ha : a ∈ D) (hD : D.Nodup) (ω : Tape) :
    tapes D ω = (tapes (D.erase a) ω).bind fun ω' => (unif passwordLength).bind fun b => PMF.pure (Function.update ω' a (some b)) := by
  induction D with
  | nil => exact nomatch ha
  | cons j D ih =>
    by_cases hj : j = a
    · subst hj; rw [List.erase_cons_head]; rfl
    · have hb : (j == a) = false := by simpa using hj
      rw [List.erase_cons_tail (by simp [hb]), tapes, tapes, ih ((List.mem_cons.mp ha).resolve_left (Ne.symm hj)) hD.of_cons]
      simp only [PMF.bind_bind, PMF.pure_bind]
      congr 1; funext ω1
      rw [PMF.bind_comm]
      congr 1; funext b; congr 1; funext b'
      rw [Function.update_comm hj]

/-- One of the passwords can be drawn first. -/
theorem tapes_first {D : List Nat} {a : Nat} (ha : a ∈ D) (hD : D.Nodup) (ω : Tape) :
    tapes D ω = (unif passwordLength).bind fun b => tapes (D.erase a) (Function.update ω a (some b)) := by
  have key : ∀ (D : List Nat) (b : BytesN passwordLength), a ∉ D → tapes D (Function.update ω a (some b)) =
      (tapes D ω).bind fun ω' => PMF.pure (Function.update ω' a (some b)) := by
    intro D b hD
    induction D with
    | nil => simp only [tapes, PMF.pure_bind]
    | cons j D ih =>
      have hj : j ≠ a := fun h => hD (h ▸ .head _)
      rw [tapes, tapes, ih fun h => hD (.tail _ h)]
      simp only [PMF.bind_bind, PMF.pure_bind]
      congr 1; funext ω1; congr 1; funext b'
      rw [Function.update_comm hj]
  rw [tapes_last ha hD, PMF.bind_comm]
  congr 1; funext b
  exact (key _ b (hD.not_mem_erase)).symm

/-! ## Trees that win only with a password that they do not know -/

/-- What a comparison says if nobody knows the passwords `D`. -/
def blindly (P : Prims) (D : List Nat) (ω : Tape) (w : Word) : Src → Option Bool
  | .read h => comparePassword P (w.at ω) h.bytes
  | .made i salt =>
    if i ∈ D then some (decide (w = .made i))
    else if ∃ a ∈ D, w = .made a then (ω i).map fun _ => false
    else comparePassword P (w.at ω) ((Src.made i salt).at P ω).bytes

/-- The tree does not win if all comparisons with passwords that it does not know fail. -/
def Harmless (P : Prims) : HAdv → List Nat → Tape → List SRec → Prop
  | .done b, _, _, _ => b = false
  | .toss _ k, D, ω, T => ∀ x, Harmless P (k x) D ω T
  | .ask (.issue j) k, D, ω, T => j ∉ D ∧ ω j = none ∧ Harmless P (k ()) (j :: D) ω T
  | .ask (.reveal j) k, D, ω, T =>
    if j ∈ D then ∀ b, Harmless P (k (passwordText b)) (D.erase j) (Function.update ω j (some b)) T
    else Harmless P (k ((Word.made j).at ω)) D ω T
  | .ask (.test w h) k, D, ω, T => (∀ x, h ≠ .read x) ∧ Harmless P (k (blindly P D ω w h)) D ω T
  | .ask (.seal u aad) k, D, ω, T => ∀ r : Bytes × Bytes, Harmless P (k r) D ω (⟨aad, r.1, r.2, u⟩ :: T)
  | .ask (.open aad w c) k, D, ω, T => match madeBy T aad w c with
    | some u => Harmless P (k (.ok u)) D ω T
    | none => ∀ e, Harmless P (k (.error e)) D ω T

/-- At most `n` comparisons. -/
def Tests : Nat → HAdv → Prop
  | _, .done _ => True
  | n, .toss _ k => ∀ x, Tests n (k x)
  | 0, .ask (.test _ _) _ => False
  | n + 1, .ask (.test _ _) k => ∀ r, Tests n (k r)
  | n, .ask (.issue _) k => ∀ r, Tests n (k r)
  | n, .ask (.reveal _) k => ∀ r, Tests n (k r)
  | n, .ask (.seal _ _) k => ∀ r, Tests n (k r)
  | n, .ask (.open _ _ _) k => ∀ r, Tests n (k r)

/-- The size of a record does not depend on the password. -/
theorem length_at {P : Prims} (L : P.Laws) {ω ω' : Tape} (h : ∀ i, (ω i).isSome = (ω' i).isSome) (u : SUser) :
    (u.at P ω).toJ.render.length = (u.at P ω').toJ.render.length := by
  have key : (J.ofBytes (u.src.at P ω)).render.length = (J.ofBytes (u.src.at P ω')).render.length := by
    refine render_length_alike ?_
    cases u.src with
    | read h => rfl
    | made i salt =>
      have := h i
      simp only [Src.at]
      cases h1 : ω i <;> cases h2 : ω' i <;> simp_all [L.pbkdf2_len]
  simp only [SUser.at, User.toJ, J.render, JFields.render, List.length_append, key]

theorem compare_made (P : Prims) (p q : GoString) (salt : BytesN saltLength) :
    comparePassword P p (salt.1 ++ P.pbkdf2 q salt.1) = some (decide (P.pbkdf2 p salt.1 = P.pbkdf2 q salt.1)) := by
  rw [comparePassword, if_neg (by rw [List.length_append, salt.2]; omega)]
  simp only [List.take_left' (i := saltLength) salt.2, List.drop_left' (i := saltLength) salt.2]

section
variable {P : Prims} {δ : ℝ}

/-- A password that nobody knows is hardly another one's hash. -/
theorem luck_tapes (hδ : ∀ p salt, luck P p salt ≤ δ) (h0 : 0 ≤ δ) {D : List Nat} {ω : Tape} (hD : D.Nodup) {a : Nat} (ha : a ∈ D)
    (other : Tape → GoString) (hother : ∀ ω b, other (Function.update ω a (some b)) = other ω) (salt : Bytes) :
    chance ((tapes D ω).map fun ω' => decide (P.pbkdf2 ((Word.made a).at ω') salt = P.pbkdf2 (other ω') salt)) ≤ δ := by
  rw [← PMF.bind_pure_comp, tapes_last ha hD]
  simp only [PMF.bind_bind, PMF.pure_bind, Function.comp]
  refine chance_bind_le _ _ (fun ω' _ => ?_) h0
  refine le_trans (le_of_eq ?_) (hδ (other ω') salt)
  rw [luck]
  congr 2; funext b
  simp only [Word.at, Function.update_self, Option.map_some, Option.getD_some, hother, passwordText]

theorem safe_chance (L : P.Laws) (hδ : ∀ p salt, luck P p salt ≤ δ) (h0 : 0 ≤ δ) (kek : BytesN 32) (t : HAdv) :
    ∀ (m : Nat) (D : List Nat) (ω : Tape) (T : List SRec) (s : List SealRec), D.Nodup → Harmless P t D ω T → Tests m t →
      chance ((tapes D ω).bind fun ω' => (toBlank P kek t ω' T).play (sealOracle P true) s) ≤ m * δ := by
  have hm : ∀ m : Nat, 0 ≤ (m : ℝ) * δ := fun m => mul_nonneg (Nat.cast_nonneg m) h0
  induction t with
  | done b =>
    intro m D ω T s hD hs _
    obtain rfl : b = false := hs
    simp only [toBlank, OAdv.play, PMF.bind_const, chance_pure_false]
    exact hm m
  | toss n k ih =>
    intro m D ω T s hD hs ht
    simp only [toBlank, OAdv.play]
    rw [PMF.bind_comm]
    exact chance_bind_le _ _ (fun x _ => ih x m D ω T s hD (hs x) (by cases m <;> exact ht x)) (hm m)
  | ask q k ih =>
    intro m D ω T s hD hs ht
    cases q with
    | issue j =>
      have h := ih () m (j :: D) ω T s (List.nodup_cons.mpr ⟨hs.1, hD⟩) hs.2.2 (by cases m <;> exact ht ())
      simp only [tapes, PMF.bind_bind, PMF.pure_bind] at h
      simp only [toBlank, OAdv.play]
      exact h
    | reveal j =>
      have ht : ∀ r, Tests m (k r) := by cases m <;> exact ht
      simp only [toBlank]
      simp only [Harmless] at hs
      by_cases hj : j ∈ D
      · rw [if_pos hj] at hs
        rw [tapes_first hj hD, PMF.bind_bind]
        refine chance_bind_le _ _ (fun b _ => ?_) (hm m)
        refine le_trans (le_of_eq (congrArg chance (bind_congr_support _ fun ω' hω' => ?_)))
          (ih (passwordText b) m _ _ T s (hD.erase j) (hs b) (ht _))
        have := (tapes_support hω').1 j hD.not_mem_erase
        rw [Function.update_self] at this
        simp only [Word.at, this, Option.map_some, Option.getD_some]
      · rw [if_neg hj] at hs
        refine le_trans (le_of_eq (congrArg chance (bind_congr_support _ fun ω' hω' => ?_))) (ih _ m D ω T s hD hs (ht _))
        have := (tapes_support hω').1 j hj
        simp only [Word.at, this]
    | test w h =>
      cases m with
      | zero => exact ht.elim
      | succ m =>
      have ht : ∀ r, Tests m (k r) := ht
      simp only [toBlank]
      obtain ⟨hr, hs⟩ := hs
      cases h with
      | read x => exact (hr x rfl).elim
      | made i salt =>
        have hm1 : ((m + 1 : Nat) : ℝ) * δ = δ + m * δ := by push_cast; ring
        have hsame : ∀ c, (∀ ω' ∈ (tapes D ω).support, comparePassword P (w.at ω') ((Src.made i salt).at P ω').bytes = c) →
            blindly P D ω w (.made i salt) = c →
            chance ((tapes D ω).bind fun ω' => (toBlank P kek (k (comparePassword P (w.at ω') ((Src.made i salt).at P ω').bytes)) ω' T).play
              (sealOracle P true) s) ≤ (m + 1 : Nat) * δ := by
          intro c hc hb
          rw [hb] at hs
          refine le_trans (le_of_eq (congrArg chance (bind_congr_support _ fun ω' hω' => by rw [hc ω' hω']))) ?_
          refine (ih c m D ω T s hD hs (ht _)).trans ?_
          rw [hm1]; linarith
        have hhid : ∀ a ∈ D, (∀ other : Tape → GoString, (∀ ω b, other (Function.update ω a (some b)) = other ω) →
            (∀ ω' ∈ (tapes D ω).support, comparePassword P (w.at ω') ((Src.made i salt).at P ω').bytes =
              some (decide (P.pbkdf2 ((Word.made a).at ω') salt.1 = P.pbkdf2 (other ω') salt.1))) →
            blindly P D ω w (.made i salt) = some false →
            chance ((tapes D ω).bind fun ω' => (toBlank P kek (k (comparePassword P (w.at ω') ((Src.made i salt).at P ω').bytes)) ω' T).play
              (sealOracle P true) s) ≤ (m + 1 : Nat) * δ) := by
          intro a ha other hother hc hb
          rw [hb] at hs
          have h1 := luck_tapes hδ h0 (ω := ω) hD ha other hother salt.1
          have h2 := ih (some false) m D ω T s hD hs (ht _)
          refine (chance_bind_split _ _ _ _ fun ω' hω' hC => ?_).trans (by rw [hm1]; exact add_le_add h1 h2)
          rw [hc ω' hω', hC]
        have hat : ∀ (ω' : Tape) b, ω' i = some b → comparePassword P (w.at ω') ((Src.made i salt).at P ω').bytes =
            some (decide (P.pbkdf2 (w.at ω') salt.1 = P.pbkdf2 (passwordText b) salt.1)) := by
          intro ω' b hb
          simp only [Src.at, hb, Option.map_some]
          exact compare_made P _ _ salt
        by_cases hi : i ∈ D
        · by_cases hw : w = .made i
          · refine hsame (some true) (fun ω' hω' => ?_) (by rw [blindly, if_pos hi, hw]; simp)
            obtain ⟨b, hb⟩ := (tapes_support hω').2 i hi
            rw [hat ω' b hb, hw]
            simp [Word.at, hb]
          · refine hhid i hi (w.at ·) (fun ω b => ?_) (fun ω' hω' => ?_) (by rw [blindly, if_pos hi]; simp [hw])
            · cases w with
              | known p => rfl
              | made a =>
                have : a ≠ i := fun h => hw (h ▸ rfl)
                simp only [Word.at, Function.update_of_ne this]
            · obtain ⟨b, hb⟩ := (tapes_support hω').2 i hi
              rw [hat ω' b hb]
              simp only [Word.at, hb, Option.map_some, Option.getD_some, eq_comm]
        · by_cases hw : ∃ a ∈ D, w = .made a
          · obtain ⟨a, ha, rfl⟩ := hw
            have hbl : blindly P D ω (.made a) (.made i salt) = (ω i).map fun _ => false := by
              rw [blindly, if_neg hi, if_pos ⟨a, ha, rfl⟩]
            have hai : i ≠ a := fun h => hi (h ▸ ha)
            cases hωi : ω i with
            | none =>
              refine hsame none (fun ω' hω' => ?_) (by rw [hbl, hωi]; rfl)
              have := (tapes_support hω').1 i hi
              simp only [Src.at, this, hωi, Option.map_none]
              rfl
            | some b =>
              refine hhid a ha (fun _ => passwordText b) (fun _ _ => rfl) (fun ω' hω' => ?_) (by rw [hbl, hωi]; rfl)
              rw [hat ω' b (by rw [(tapes_support hω').1 i hi, hωi])]
          · refine hsame _ (fun ω' hω' => ?_) (by rw [blindly, if_neg hi, if_neg hw])
            have h1 := (tapes_support hω').1 i hi
            have h2 : w.at ω' = w.at ω := by
              cases w with
              | known p => rfl
              | made a => simp only [Word.at, (tapes_support hω').1 a fun ha => hw ⟨a, ha, rfl⟩]
            simp only [Src.at, h1, h2]
    | «seal» u aad =>
      have ht : ∀ r, Tests m (k r) := by cases m <;> exact ht
      simp only [toBlank, OAdv.play, sealOracle, PMF.bind_bind, PMF.pure_bind, if_true]
      rcases (tapes D ω).support_nonempty with ⟨ω0, h1⟩
      have hlen : ∀ ω' ∈ (tapes D ω).support, (u.at P ω').toJ.render.length = (u.at P ω0).toJ.render.length := by
        refine fun ω' h2 => length_at L (fun i => ?_) u
        by_cases hi : i ∈ D
        · obtain ⟨b, hb⟩ := (tapes_support h1).2 i hi
          obtain ⟨b', hb'⟩ := (tapes_support h2).2 i hi
          rw [hb, hb']; rfl
        · rw [(tapes_support h1).1 i hi, (tapes_support h2).1 i hi]
      rw [bind_congr_support _ (fun ω' h2 => by rw [hlen ω' h2]), PMF.bind_comm]
      refine chance_bind_le _ _ (fun key _ => ?_) (hm m)
      rw [PMF.bind_comm]
      refine chance_bind_le _ _ (fun nonce _ => ?_) (hm m)
      rw [PMF.bind_comm]
      exact chance_bind_le _ _ (fun other _ => ih _ m D ω _ _ hD (hs (_, _)) (ht _)) (hm m)
    | «open» aad w c =>
      have ht : ∀ r, Tests m (k r) := by cases m <;> exact ht
      simp only [toBlank]
      simp only [Harmless] at hs
      cases hmb : madeBy T aad w c with
      | some u =>
        rw [hmb] at hs
        exact ih _ m D ω T s hD hs (ht _)
      | none =>
        rw [hmb] at hs
        exact ih _ m D ω T s hD (hs _) (ht _)

end

end D1
