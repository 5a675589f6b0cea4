import Verif.Spec.Contest
import Verif.Proofs.Trial
/-!
# Programs that differ in what they seal

Two programs that differ in what they seal, and otherwise do the same with what they read of it.  Whoever tells them apart tells
wrapped keys apart, forges AES-GCM ciphertexts, or tells AES-GCM ciphertexts apart.
-/
namespace D1
open Prog

/-! ## Trees -/

/-- What is remembered of a box that has one of two contents. -/
structure PRec where
  aad : Bytes
  w : Bytes
  c : Bytes
  m : J
  m' : J

/-- The contents of a box that was made. -/
def bothOf (T : List PRec) (aad w c : Bytes) : Option PRec := T.find? fun e => e.aad = aad ∧ e.w = w ∧ e.c = c

/-- The two trees do the same, but for the contents of boxes, when nothing is opened but what was made. -/
def Matched : List PRec → IAdv → IAdv → Prop
  | _, .done b, .done b' => b = b'
  | T, .toss n k, .toss n' k' => ∃ h : n = n', ∀ x, Matched T (k x) (k' (h ▸ x))
  | T, .ask (.seal m aad) k, .ask (.seal m' aad') k' => aad = aad' ∧ m.render.length = m'.render.length ∧
      ∀ r : Bytes × Bytes, Matched (⟨aad, r.1, r.2, m, m'⟩ :: T) (k r) (k' r)
  | T, .ask (.open aad w c) k, .ask (.open aad' w' c') k' => aad = aad' ∧ w = w' ∧ c = c' ∧
      (∀ e, bothOf T aad w c = some e → Matched T (k (.ok (some e.m.san))) (k' (.ok (some e.m'.san)))) ∧
      (bothOf T aad w c = none → ∀ e, Matched T (k (.error e)) (k' (.error e)))
  | _, _, _ => False

/-- What is answered for a box that was not made. -/
def declined (T : List PRec) (w : Bytes) : Err := if T.any fun e => e.w = w then .aead else .kwp

/-- The attack on AES-GCM: the oracle seals one of the two contents. -/
def toPick (P : Prims) (kek : BytesN 32) : IAdv → IAdv → List PRec → OAdv SealAsk SealAsk.Ans
  | .done b, _, _ => .done b
  | .toss n k, .toss n' k', T => if h : n = n' then .toss n fun x => toPick P kek (k x) (k' (h ▸ x)) T else .done false
  | .ask (.seal m aad) k, .ask (.seal m' _) k', T =>
    if h : m.render.length = m'.render.length then
      .ask (.seal ⟨m.render, m'.render, aad, h⟩) fun (r : BytesN 12 × Bytes) => .toss 32 fun other =>
        toPick P kek (k (wrapped P kek other, r.2 ++ r.1.1)) (k' (wrapped P kek other, r.2 ++ r.1.1))
          (⟨aad, wrapped P kek other, r.2 ++ r.1.1, m, m'⟩ :: T)
    else .done false
  | .ask (.open aad w c) k, .ask (.open _ _ _) k', T => match bothOf T aad w c with
    | some e => toPick P kek (k (.ok (some e.m.san))) (k' (.ok (some e.m'.san))) T
    | none => toPick P kek (k (.error (declined T w))) (k' (.error (declined T w))) T
  | _, _, _ => .done false

/-- The boxes of one side. -/
def PairedBoxes (f : PRec → J) (T : List (IRec (BytesN 32))) (T' : List PRec) : Prop :=
  T.map (fun e => (e.aad, e.w, e.c, e.m)) = T'.map fun e => (e.aad, e.w, e.c, f e)

namespace PairedBoxes
variable {f : PRec → J} {T : List (IRec (BytesN 32))} {T' : List PRec}

theorem cons (h : PairedBoxes f T T') (aad w c : Bytes) (m m' : J) (key : BytesN 32) :
    PairedBoxes f (⟨aad, w, c, f ⟨aad, w, c, m, m'⟩, key⟩ :: T) (⟨aad, w, c, m, m'⟩ :: T') := by
  simp only [PairedBoxes, List.map_cons] at h ⊢
  rw [h]

theorem made (h : PairedBoxes f T T') (aad w c : Bytes) : madeOf T aad w c = (bothOf T' aad w c).map fun e => (f e).san := by
  induction T generalizing T' with
  | nil =>
    cases T' with
    | nil => rfl
    | cons e' T' => exact nomatch h
  | cons e T ih =>
    cases T' with
    | nil => exact nomatch h
    | cons e' T' =>
      simp only [PairedBoxes, List.map_cons, List.cons.injEq, Prod.mk.injEq] at h
      obtain ⟨⟨h1, h2, h3, h4⟩, h5⟩ := h
      have ih := ih h5
      simp only [bothOf, madeOf, List.find?_cons, h1, h2, h3] at ih ⊢
      cases decide (e'.aad = aad ∧ e'.w = w ∧ e'.c = c) with
      | true => simp only [Option.map_some, h4]
      | false => exact ih

theorem declined (h : PairedBoxes f T T') (w : Bytes) :
    (match (givenOut T).lookup w with
      | none => (.error .kwp : Except Err (Option J))
      | some _ => .error .aead) = .error (declined T' w) := by
  induction T generalizing T' with
  | nil =>
    cases T' with
    | nil => rfl
    | cons e' T' => exact nomatch h
  | cons e T ih =>
    cases T' with
    | nil => exact nomatch h
    | cons e' T' =>
      simp only [PairedBoxes, List.map_cons, List.cons.injEq, Prod.mk.injEq] at h
      obtain ⟨⟨h1, h2, h3, h4⟩, h5⟩ := h
      have ih := ih h5
      simp only [givenOut, List.map_cons, List.lookup_cons, D1.declined, List.any_cons, h2] at ih ⊢
      by_cases hw : e'.w = w
      · simp [hw]
      · have : (w == e'.w) = false := by simpa using Ne.symm hw
        simp only [this, hw, decide_false, Bool.false_or]
        exact ih

end PairedBoxes

theorem play_pick_left {P : Prims} (L : P.Laws) (kek : BytesN 32) (t : IAdv) :
    ∀ t' T T' s, Matched T' t t' → PairedBoxes (·.m) T T' →
      (toPick P kek t t' T').play (sealOracle P false) s = t.play (boxShut P kek) T := by
  induction t with
  | done b => intros; rfl
  | toss n k ih =>
    intro t' T T' s h hT
    cases t' with
    | toss n' k' =>
      obtain ⟨rfl, h⟩ := h
      simp only [toPick, dif_pos, OAdv.play]
      congr 1; funext x
      exact ih x _ _ _ _ (h x) hT
    | done b => exact h.elim
    | ask q k' => exact h.elim
  | ask q k ih =>
    intro t' T T' s h hT
    cases t' with
    | toss n' k' => cases q <;> exact h.elim
    | done b => cases q <;> exact h.elim
    | ask q' k' =>
      cases q with
      | «seal» m aad =>
        cases q' with
        | «open» _ _ _ => exact h.elim
        | «seal» m' aad' =>
          obtain ⟨rfl, hl, h⟩ := h
          simp only [toPick, dif_pos hl, OAdv.play, sealOracle, boxShut, boxSwap, PMF.bind_bind, PMF.pure_bind, wrapped_eq L,
            Bool.false_eq_true, if_false]
          congr 1; funext key
          rw [PMF.bind_comm]
          congr 1; funext other; congr 1; funext nonce
          exact ih _ _ _ _ _ (h (_, _)) (hT.cons ..)
      | «open» aad w c =>
        cases q' with
        | «seal» _ _ => exact h.elim
        | «open» aad' w' c' =>
          obtain ⟨rfl, rfl, rfl, h1, h2⟩ := h
          simp only [toPick, OAdv.play, boxShut, PMF.pure_bind, hT.made]
          cases hb : bothOf T' aad w c with
          | some e => exact ih _ _ _ _ _ (h1 e hb) hT
          | none =>
            simp only [Option.map_none]
            rw [ih _ _ _ _ _ (h2 hb _) hT]
            exact congrArg (fun a => OAdv.play (boxShut P kek) (k a) T) (hT.declined w).symm

theorem play_pick_right {P : Prims} (L : P.Laws) (kek : BytesN 32) (t : IAdv) :
    ∀ t' T T' s, Matched T' t t' → PairedBoxes (·.m') T T' →
      (toPick P kek t t' T').play (sealOracle P true) s = t'.play (boxShut P kek) T := by
  induction t with
  | done b =>
    intro t' T T' s h hT
    cases t' with
    | done b' => obtain rfl : b = b' := h; rfl
    | toss n' k' => exact h.elim
    | ask q' k' => exact h.elim
  | toss n k ih =>
    intro t' T T' s h hT
    cases t' with
    | toss n' k' =>
      obtain ⟨rfl, h⟩ := h
      simp only [toPick, dif_pos, OAdv.play]
      congr 1; funext x
      exact ih x _ _ _ _ (h x) hT
    | done b => exact h.elim
    | ask q k' => exact h.elim
  | ask q k ih =>
    intro t' T T' s h hT
    cases t' with
    | toss n' k' => cases q <;> exact h.elim
    | done b => cases q <;> exact h.elim
    | ask q' k' =>
      cases q with
      | «seal» m aad =>
        cases q' with
        | «open» _ _ _ => exact h.elim
        | «seal» m' aad' =>
          obtain ⟨rfl, hl, h⟩ := h
          simp only [toPick, dif_pos hl, OAdv.play, sealOracle, boxShut, boxSwap, PMF.bind_bind, PMF.pure_bind, wrapped_eq L,
            if_true]
          congr 1; funext key
          rw [PMF.bind_comm]
          congr 1; funext other; congr 1; funext nonce
          exact ih _ _ _ _ _ (h (_, _)) (hT.cons ..)
      | «open» aad w c =>
        cases q' with
        | «seal» _ _ => exact h.elim
        | «open» aad' w' c' =>
          obtain ⟨rfl, rfl, rfl, h1, h2⟩ := h
          simp only [toPick, OAdv.play, boxShut, PMF.pure_bind, hT.made]
          cases hb : bothOf T' aad w c with
          | some e => exact ih _ _ _ _ _ (h1 e hb) hT
          | none =>
            simp only [Option.map_none]
            rw [ih _ _ _ _ _ (h2 hb _) hT]
            exact congrArg (fun a => OAdv.play (boxShut P kek) (k' a) T) (hT.declined w).symm

/-- The forger that a tree amounts to. -/
def forger (P : Prims) (t : IAdv) : OAdv ForgeAsk ForgeAsk.Ans := .toss 32 fun kek => toForge P kek t []

/-- The attack on AES-GCM that two trees amount to. -/
def picker (P : Prims) (t t' : IAdv) : OAdv SealAsk SealAsk.Ans := .toss 32 fun kek => toPick P kek t t' []

theorem play_swap {P : Prims} (L : P.Laws) (t : IAdv) :
    (forger P t).play (forgeOracle P true) [] = (unif 32).bind fun kek => (toUnwrap P t []).play (wrapIdeal P kek) [] := by
  simp only [forger, OAdv.play, play_toForge L _ _ [] [] [] .nil]
  congr 1; funext kek
  exact (play_toUnwrap_ideal L kek _ []).symm

theorem play_real {P : Prims} (L : P.Laws) (t : IAdv) :
    ((unif 32).bind fun kek => t.play (boxTrue P kek) []) = (unif 32).bind fun kek => (toUnwrap P t []).play (wrapReal P kek) () := by
  simp only [play_toUnwrap L]

/-- Whoever tells the two trees apart tells wrapped keys apart, forges, or tells AES-GCM ciphertexts apart. -/
theorem matched_gap {P : Prims} (L : P.Laws) {t t' : IAdv} (h : Matched [] t t') :
    gap ((unif 32).bind fun kek => t.play (boxTrue P kek) []) ((unif 32).bind fun kek => t'.play (boxTrue P kek) []) ≤
      wrapGap P (toUnwrap P t []) + forgeGap P (forger P t) + sealGap P (picker P t t') + forgeGap P (forger P t') +
        wrapGap P (toUnwrap P t' []) := by
  have h1 : (forger P t).play (forgeOracle P false) [] = (picker P t t').play (sealOracle P false) [] := by
    simp only [forger, picker, OAdv.play, play_toForge_shut L _ _ [] [] [] .nil]
    congr 1; funext kek
    exact (play_pick_left L kek t t' [] [] [] h rfl).symm
  have h2 : (forger P t').play (forgeOracle P false) [] = (picker P t t').play (sealOracle P true) [] := by
    simp only [forger, picker, OAdv.play, play_toForge_shut L _ _ [] [] [] .nil]
    congr 1; funext kek
    exact (play_pick_right L kek t t' [] [] [] h rfl).symm
  simp only [wrapGap, forgeGap, sealGap, gap, play_real L, ← play_swap L, h1, h2]
  generalize chance ((unif 32).bind fun kek => (toUnwrap P t []).play (wrapReal P kek) ()) = a
  generalize chance ((forger P t).play (forgeOracle P true) []) = b
  generalize chance ((picker P t t').play (sealOracle P false) []) = c
  generalize chance ((picker P t t').play (sealOracle P true) []) = d
  generalize chance ((forger P t').play (forgeOracle P true) []) = e
  generalize chance ((unif 32).bind fun kek => (toUnwrap P t' []).play (wrapReal P kek) ()) = f
  have := abs_sub_comm f e
  have := abs_sub_comm e d
  have e1 : a - f = (a - b) + (b - c) + (c - d) + (d - e) + (e - f) := by ring
  rw [e1]
  have k1 := abs_add_le (a - b + (b - c) + (c - d) + (d - e)) (e - f)
  have k2 := abs_add_le (a - b + (b - c) + (c - d)) (d - e)
  have k3 := abs_add_le (a - b + (b - c)) (c - d)
  have k4 := abs_add_le (a - b) (b - c)
  linarith

/-! ## Programs -/

namespace IProg
variable {R : Type}

/-- Two programs do the same, but for what they seal and read, and for their results. -/
def Mirror (B : J → J → Prop) (Q : R → R → Prop) : IProg R → IProg R → Prop
  | ret a, ret a' => Q a a'
  | err e, err e' => e = e'
  | panic, panic => True
  | diverge, diverge => True
  | op e k, op e' k' => ∃ h : e = e', ∀ r, Mirror B Q (k r) (k' (h ▸ r))
  | box m aad k, box m' aad' k' => aad = aad' ∧ B m m' ∧ m.render.length = m'.render.length ∧ ∀ r, Mirror B Q (k r) (k' r)
  | unbox aad w c k, unbox aad' w' c' k' => aad = aad' ∧ w = w' ∧ c = c' ∧
      (∀ e, Mirror B Q (k (.error e)) (k' (.error e))) ∧
      ∀ m m', B m m' → Mirror B Q (k (.ok (some m.san))) (k' (.ok (some m'.san)))
  | _, _ => False

variable {ι : Type} (B : ι → J → J → Prop) (Q : ι → R → R → Prop)

/-- The same for each of some relations. -/
def Steady (S : ι → Prop) (p p' : IProg R) : Prop := ∀ σ, S σ → p.Mirror (B σ) (Q σ) p'

/-- All boxes were made in agreement with each of the relations. -/
def Agreed (S : ι → Prop) (T : List PRec) : Prop := ∀ σ, S σ → ∀ e ∈ T, B σ e.m e.m'

variable {B Q} {S : ι → Prop}

theorem matched_tree (hne : ∃ σ, S σ) {K K' : IProg R → IAdv}
    (hK : ∀ p p' T, p.Calm → Steady B Q S p p' → Agreed B S T → Matched T (K p) (K' p')) (p : IProg R) :
    ∀ p' T, Steady B Q S p p' → Agreed B S T → Matched T (p.tree K) (p'.tree K') := by
  obtain ⟨τ, hτ⟩ := hne
  induction p with
  | op e k ih =>
    intro p' T hp hT
    have h0 := hp τ hτ
    cases p' with
    | op e' k' =>
      obtain ⟨rfl, -⟩ := h0
      cases e with
      | rand n => exact ⟨rfl, fun b => ih _ _ T (fun σ hσ => (hp σ hσ).2 _) hT⟩
      | _ => exact hK _ _ T trivial hp hT
    | _ => exact h0.elim
  | box m aad k ih =>
    intro p' T hp hT
    have h0 := hp τ hτ
    cases p' with
    | box m' aad' k' =>
      obtain ⟨rfl, -, hl, -⟩ := h0
      refine ⟨rfl, hl, fun r => ih r _ _ (fun σ hσ => (hp σ hσ).2.2.2 r) fun σ hσ e he => ?_⟩
      rcases List.mem_cons.mp he with rfl | he
      · exact (hp σ hσ).2.1
      · exact hT σ hσ e he
    | _ => exact h0.elim
  | unbox aad w c k ih =>
    intro p' T hp hT
    have h0 := hp τ hτ
    cases p' with
    | unbox aad' w' c' k' =>
      obtain ⟨rfl, rfl, rfl, -⟩ := h0
      exact ⟨rfl, rfl, rfl, fun e hb => ih _ _ T (fun σ hσ => (hp σ hσ).2.2.2.2 _ _ (hT σ hσ e (List.mem_of_find?_eq_some hb))) hT,
        fun _ e => ih _ _ T (fun σ hσ => (hp σ hσ).2.2.2.1 e) hT⟩
    | _ => exact h0.elim
  | ret a =>
    intro p' T hp hT
    have h0 := hp τ hτ
    cases p' with
    | ret a' => exact hK _ _ T trivial hp hT
    | _ => exact h0.elim
  | err e =>
    intro p' T hp hT
    have h0 := hp τ hτ
    cases p' with
    | err a' => exact hK _ _ T trivial hp hT
    | _ => exact h0.elim
  | panic =>
    intro p' T hp hT
    have h0 := hp τ hτ
    cases p' with
    | panic => exact hK _ _ T trivial hp hT
    | _ => exact h0.elim
  | diverge =>
    intro p' T hp hT
    have h0 := hp τ hτ
    cases p' with
    | diverge => exact hK _ _ T trivial hp hT
    | _ => exact h0.elim

theorem mirror_after {β : Type} {B : J → J → Prop} {Q : R → R → Prop} (p : Prog β) {k k' : β → IProg R} (h : ∀ a, (k a).Mirror B Q (k' a)) :
    (after p k).Mirror B Q (after p k') := by
  induction p with
  | op e c ih => exact ⟨rfl, fun r => ih r⟩
  | ret a => exact h a
  | err e => rfl
  | panic => trivial
  | diverge => trivial

theorem mirror_lift {B : J → J → Prop} {Q : R → R → Prop} (p : Prog R) (h : ∀ a, Q a a) : (lift p).Mirror B Q (lift p) :=
  mirror_after p h

end IProg

/-! ## The game -/

/-- Drawing random bytes. -/
inductive Draw (α : Type) where
  | done (a : α)
  | toss (n : Nat) (k : BytesN n → Draw α)

namespace Draw
variable {α : Type}

def tree {Q : Type} {R : Q → Type} : Draw α → (α → OAdv Q R) → OAdv Q R
  | done a, K => K a
  | toss n k, K => .toss n fun x => (k x).tree K

/-- The same is drawn. -/
def Same (E : α → α → Prop) : Draw α → Draw α → Prop
  | done a, done a' => E a a'
  | toss n k, toss n' k' => ∃ h : n = n', ∀ x, Same E (k x) (k' (h ▸ x))
  | _, _ => False

end Draw

open Classical in
/-- The game with boxes; to begin a challenge, keys may be drawn. -/
noncomputable def Spy.contestTree {X S R : Type} (A : Spy X R) (fair : List X → X → Prop) (start : List X → X → S → Draw (S × IProg (List X → R))) :
    Nat → S → List X → List (Sight R) → List (IProg (List X → R)) → IAdv
  | 0, _, _, v, _ => .done (A.guess v)
  | n + 1, s, xs, v, ps =>
    match A.move n v with
    | .stop => .done (A.guess v)
    | .begin x => if fair xs x then (start xs x s).tree fun r => A.contestTree fair start n r.1 (xs ++ [x]) v (ps ++ [r.2])
      else A.contestTree fair start n s xs v ps
    | .other p => A.contestTree fair start n s xs v (ps ++ [IProg.after p fun r => .ret fun (_ : List X) => r])
    | .step j =>
      match ps[j]? with
      | none => A.contestTree fair start n s xs v ps
      | some p => p.tree fun q =>
        match q.next with
        | .inl o => A.contestTree fair start n s xs (v ++ [.result j (o.map fun r => r xs)]) (ps.set j q)
        | .inr ⟨e, k⟩ => A.contestTree fair start n s xs (v ++ [.request j ⟨e, A.answer v e⟩]) (ps.set j (k (A.answer v e)))

/-- Challenges each of which was fair after those before it. -/
inductive Legal {X : Type} (fair : List X → X → Prop) : List X → Prop
  | nil : Legal fair []
  | snoc {xs x} : Legal fair xs → fair xs x → Legal fair (xs ++ [x])

/-- What can come of the challenges so far. -/
def Ahead {X : Type} (fair : List X → X → Prop) (xs ys : List X) : Prop := xs <+: ys ∧ Legal fair ys

/-- Programs that do the same, but for what they seal, whatever challenges there will be. -/
abbrev Abreast {X R : Type} (fair : List X → X → Prop) (B : List X → J → J → Prop) (xs : List X) :
    IProg (List X → R) → IProg (List X → R) → Prop :=
  IProg.Steady B (fun ys f f' => f ys = f' ys) (Ahead fair xs)

theorem matched_draw {α : Type} {E : α → α → Prop} {T : List PRec} {K K' : α → IAdv} (hK : ∀ a a', E a a' → Matched T (K a) (K' a'))
    (d : Draw α) : ∀ d', d.Same E d' → Matched T (d.tree K) (d'.tree K') := by
  induction d with
  | done a =>
    intro d' h
    cases d' with
    | done a' => exact hK a a' h
    | toss n k => exact h.elim
  | toss n k ih =>
    intro d' h
    cases d' with
    | done a' => exact h.elim
    | toss n' k' =>
      obtain ⟨rfl, h⟩ := h
      exact ⟨rfl, fun x => ih x _ (h x)⟩

theorem forall₂_set {α β : Type} {r : α → β → Prop} {l : List α} {l' : List β} (h : List.Forall₂ r l l') :
    ∀ (j : Nat) {a : α} {b : β}, r a b → List.Forall₂ r (l.set j a) (l'.set j b) := by
  induction h with
  | nil => intro j a b _; exact .nil
  | cons h t ih =>
    intro j a b hab
    cases j with
    | zero => exact .cons hab t
    | succ j => exact .cons h (ih j hab)

/-- The two sides of a game are matched. -/
theorem matched_contest {X S R : Type} {B : List X → J → J → Prop} {fair : List X → X → Prop}
    {start start' : List X → X → S → Draw (S × IProg (List X → R))}
    (hstart : ∀ xs x s, Legal fair xs → fair xs x →
      (start xs x s).Same (fun a a' => a.1 = a'.1 ∧ Abreast fair B (xs ++ [x]) a.2 a'.2) (start' xs x s))
    (A : Spy X R) : ∀ (n : Nat) (s : S) (xs : List X) (v : List (Sight R)) (ps ps' : List (IProg (List X → R))) (T : List PRec),
      Legal fair xs → List.Forall₂ (Abreast fair B xs) ps ps' → IProg.Agreed B (Ahead fair xs) T →
      Matched T (A.contestTree fair start n s xs v ps) (A.contestTree fair start' n s xs v ps') := by
  intro n
  induction n with
  | zero => intros; rfl
  | succ n ih =>
    intro s xs v ps ps' T hne hps hT
    simp only [Spy.contestTree]
    cases A.move n v with
    | stop => rfl
    | begin x =>
      dsimp only
      by_cases hf : fair xs x
      · rw [if_pos hf, if_pos hf]
        refine matched_draw (fun a a' ha => ?_) _ _ (hstart xs x s hne hf)
        obtain ⟨h1, h2⟩ := ha
        rw [← h1]
        have hmono : ∀ ys, Ahead fair (xs ++ [x]) ys → Ahead fair xs ys := fun ys h => ⟨(List.prefix_append xs [x]).trans h.1, h.2⟩
        refine ih _ _ _ _ _ _ (hne.snoc hf) ?_ fun σ hσ => hT σ (hmono _ hσ)
        exact List.rel_append (hps.imp fun _ _ h σ hσ => h σ (hmono _ hσ)) (.cons h2 .nil)
      · rw [if_neg hf, if_neg hf]
        exact ih _ _ _ _ _ _ hne hps hT
    | other p =>
      refine ih _ _ _ _ _ _ hne (List.rel_append hps (.cons (fun σ _ => ?_) .nil)) hT
      exact IProg.mirror_after _ fun a => rfl
    | step j =>
      dsimp only
      have hself : Ahead fair xs xs := ⟨List.prefix_rfl, hne⟩
      by_cases hj : j < ps.length
      · have hj' : j < ps'.length := hps.length_eq ▸ hj
        rw [List.getElem?_eq_getElem hj, List.getElem?_eq_getElem hj']
        have hp := List.forall₂_iff_get.mp hps
        refine IProg.matched_tree ⟨xs, hself⟩ (fun q q' T hq hqq hT => ?_) _ _ T (hp.2 j hj hj') hT
        have hset : List.Forall₂ (Abreast fair B xs) (ps.set j q) (ps'.set j q') := forall₂_set hps j hqq
        have h0 := hqq xs hself
        cases q with
        | box m aad k => exact hq.elim
        | unbox aad w c k => exact hq.elim
        | ret a =>
          cases q' with
          | ret a' =>
            have : a xs = a' xs := h0
            simp only [IProg.next, Outcome.map, this]
            exact ih _ _ _ _ _ _ hne hset hT
          | _ => exact h0.elim
        | err e =>
          cases q' with
          | err e' =>
            obtain rfl : e = e' := h0
            exact ih _ _ _ _ _ _ hne hset hT
          | _ => exact h0.elim
        | panic =>
          cases q' with
          | panic => exact ih _ _ _ _ _ _ hne hset hT
          | _ => exact h0.elim
        | diverge =>
          cases q' with
          | diverge => exact ih _ _ _ _ _ _ hne hset hT
          | _ => exact h0.elim
        | op e k =>
          cases q' with
          | op e' k' =>
            obtain ⟨rfl, -⟩ := h0
            exact ih _ _ _ _ _ _ hne (forall₂_set hps j fun σ hσ => (hqq σ hσ).2 _) hT
          | _ => exact h0.elim
      · have hj' : ¬j < ps'.length := hps.length_eq ▸ hj
        rw [List.getElem?_eq_none (by omega), List.getElem?_eq_none (by omega)]
        exact ih _ _ _ _ _ _ hne hps hT

/-- The game with boxes is the game. -/
theorem play_contest {X R : Type} {P : Prims} (L : P.Laws) (A : Spy X R) (C : Contest X R) (S : X → IProg (List X → R)) (kek : BytesN 32)
    (hC : ∀ x, C.prog x = (S x).expand P kek) :
    ∀ (n : Nat) (xs : List X) (v : List (Sight R)) (ps : List (IProg (List X → R))) (T : List (IRec (BytesN 32))), TrueRecs P kek T →
      (A.contestTree C.fair (fun _ x s => .done (s, S x)) n () xs v ps).play (boxTrue P kek) T =
        A.contest C n xs v (ps.map (·.expand P kek)) := by
  intro n
  induction n with
  | zero => intros; rfl
  | succ n ih =>
    intro xs v ps T hT
    simp only [Spy.contestTree, Spy.contest]
    cases A.move n v with
    | stop => rfl
    | begin x =>
      dsimp only
      by_cases hf : C.fair xs x
      · rw [if_pos hf, if_pos hf, hC]
        exact (ih _ _ _ _ hT).trans (by rw [List.map_append, List.map_singleton])
      · rw [if_neg hf, if_neg hf]
        exact ih _ _ _ _ hT
    | other p =>
      refine (ih _ _ _ _ hT).trans ?_
      rw [List.map_append, List.map_singleton, IProg.expand_after]
      rfl
    | step j =>
      simp only [List.getElem?_map]
      cases hj : ps[j]? with
      | none => exact ih _ v ps T hT
      | some p =>
        simp only [Option.map_some]
        refine play_itree L kek _ _ (fun q T hq hT => ?_) p T hT
        rw [inext_expand P kek hq]
        cases hn : q.next with
        | inl o => exact (ih _ _ _ _ hT).trans (by rw [List.map_set])
        | inr x =>
          obtain ⟨e, k⟩ := x
          exact (ih _ _ _ _ hT).trans (by rw [List.map_set])

/-- The tree of one side of a game with one key. -/
noncomputable def Spy.sideTree {X R : Type} (A : Spy X R) (fair : List X → X → Prop) (S : X → IProg (List X → R)) (n : Nat) : IAdv :=
  A.contestTree fair (fun _ x s => .done (s, S x)) n () [] [] []

/-- Whoever tells the two sides of a game apart tells wrapped keys apart, forges, or tells AES-GCM ciphertexts apart. -/
theorem contest_gap {X R : Type} {P : Prims} (L : P.Laws) {B : List X → J → J → Prop} {fair : List X → X → Prop}
    {C C' : BytesN 32 → Contest X R} {S S' : X → IProg (List X → R)} (hf : ∀ key, (C key).fair = fair) (hf' : ∀ key, (C' key).fair = fair)
    (hC : ∀ key x, (C key).prog x = (S x).expand P key) (hC' : ∀ key x, (C' key).prog x = (S' x).expand P key)
    (hS : ∀ xs x, Legal fair xs → fair xs x → Abreast fair B (xs ++ [x]) (S x) (S' x)) (A : Spy X R) (n : Nat) :
    gap (contestGame C A n) (contestGame C' A n) ≤
      wrapGap P (toUnwrap P (A.sideTree fair S n) []) + forgeGap P (forger P (A.sideTree fair S n)) +
        sealGap P (picker P (A.sideTree fair S n) (A.sideTree fair S' n)) + forgeGap P (forger P (A.sideTree fair S' n)) +
        wrapGap P (toUnwrap P (A.sideTree fair S' n) []) := by
  have h1 : contestGame C A n = (unif 32).bind fun kek => (A.sideTree fair S n).play (boxTrue P kek) [] := by
    refine congrArg (PMF.bind _) (funext fun kek => ?_)
    have := play_contest L A (C kek) S kek (hC kek) n [] [] [] [] nofun
    rw [hf] at this
    exact this.symm
  have h2 : contestGame C' A n = (unif 32).bind fun kek => (A.sideTree fair S' n).play (boxTrue P kek) [] := by
    refine congrArg (PMF.bind _) (funext fun kek => ?_)
    have := play_contest L A (C' kek) S' kek (hC' kek) n [] [] [] [] nofun
    rw [hf'] at this
    exact this.symm
  rw [h1, h2]
  refine matched_gap L ?_
  refine matched_contest (B := B) (fun xs x s hl hf => ?_) A n () [] [] [] [] [] .nil .nil fun _ _ => nofun
  exact ⟨rfl, hS xs x hl hf⟩

/-! ## How many questions are asked -/

theorem asks_toPick (P : Prims) (kek : BytesN 32) (t : IAdv) : ∀ {n : Nat} t' T, t.Asks n → (toPick P kek t t' T).Asks n := by
  induction t with
  | done b => intros; trivial
  | toss l k ih =>
    intro n t' T h
    cases t' with
    | toss l' k' =>
      simp only [toPick]
      split
      · exact fun x => ih x _ T (h x)
      · trivial
    | _ => trivial
  | ask q k ih =>
    intro n t' T h
    cases n with
    | zero => exact h.elim
    | succ n =>
      cases t' with
      | ask q' k' =>
        cases q with
        | «seal» m aad =>
          cases q' with
          | «open» _ _ _ => trivial
          | «seal» m' aad' =>
            simp only [toPick]
            split
            · exact fun r other => ih _ _ _ (h _)
            · trivial
        | «open» aad w c =>
          cases q' with
          | «seal» _ _ => trivial
          | «open» _ _ _ =>
            simp only [toPick]
            split
            · exact (ih _ _ _ (h _)).mono (by omega)
            · exact (ih _ _ _ (h _)).mono (by omega)
      | _ => cases q <;> trivial

/-- All that can be drawn. -/
def Draw.All {α : Type} (Q : α → Prop) : Draw α → Prop
  | .done a => Q a
  | .toss _ k => ∀ x, (k x).All Q

theorem asks_draw {α : Type} {m : Nat} {Q : α → Prop} {K : α → IAdv} (hK : ∀ a, Q a → (K a).Asks m) (d : Draw α) (h : d.All Q) :
    (d.tree K).Asks m := by
  induction d with
  | done a => exact hK a h
  | toss n k ih => exact fun x => ih x (h x)

theorem bursts_contest {X S R : Type} (A : Spy X R) (fair : List X → X → Prop) {start : List X → X → S → Draw (S × IProg (List X → R))}
    {b : Nat} (hS : ∀ xs x s, (start xs x s).All fun a => a.2.Bursts b b) :
    ∀ (n : Nat) (s : S) (xs : List X) (v : List (Sight R)) (ps : List (IProg (List X → R))), (∀ p ∈ ps, p.Bursts b b) →
      (A.contestTree fair start n s xs v ps).Asks (b * n) := by
  intro n
  induction n with
  | zero => intros; trivial
  | succ n ih =>
    intro s xs v ps hps
    rw [Nat.mul_succ]
    have hadd : ∀ s xs (p : IProg (List X → R)), p.Bursts b b → (A.contestTree fair start n s xs v (ps ++ [p])).Asks (b * n + b) :=
      fun s xs p hp => (ih s xs v _ fun q hq => (List.mem_append.mp hq).elim (hps q) fun h => List.mem_singleton.mp h ▸ hp).mono (by omega)
    simp only [Spy.contestTree]
    cases A.move n v with
    | stop => trivial
    | begin x =>
      dsimp only
      split
      · exact asks_draw (fun a ha => hadd _ _ _ ha) _ (hS xs x s)
      · exact (ih _ _ _ ps hps).mono (by omega)
    | other p => exact hadd _ _ _ (IProg.bursts_after (Nat.le_refl b) _ fun _ => by cases b <;> trivial)
    | step j =>
      dsimp only
      cases hj : ps[j]? with
      | none => exact (ih _ _ v ps hps).mono (by omega)
      | some p =>
        have hset : ∀ v (q : IProg (List X → R)), q.Bursts b b → (A.contestTree fair start n s xs v (ps.set j q)).Asks (b * n) :=
          fun v q hq => ih _ _ _ _ fun x hx => (List.mem_or_eq_of_mem_set hx).elim (hps x) fun h => h ▸ hq
        refine IProg.bursts_tree (fun q hc hq => ?_) p (Nat.le_refl b) (hps p (List.mem_of_getElem? hj))
        cases hn : q.next with
        | inl o => exact hset _ _ hq
        | inr x =>
          obtain ⟨e, k⟩ := x
          have hk : ∀ r, (k r).Bursts b b := by
            cases q with
            | op e' k' =>
              cases hn
              cases e with
              | rand n => exact hc.elim
              | _ => exact hq
            | _ => cases hn
          exact hset _ _ (hk _)

/-! ## Single moves -/

theorem contest_begin {X R : Type} (A : Spy X R) (C : Contest X R) {n : Nat} {xs : List X} {v : List (Sight R)}
    {ps : List (Prog (List X → R))} {x : X} (hm : A.move n v = .begin x) (hf : C.fair xs x) :
    A.contest C (n + 1) xs v ps = A.contest C n (xs ++ [x]) v (ps ++ [C.prog x]) := by
  simp only [Spy.contest, hm, if_pos hf]

theorem contest_step {X R : Type} (A : Spy X R) (C : Contest X R) {n : Nat} {xs : List X} {v : List (Sight R)}
    {ps : List (Prog (List X → R))} {j : Nat} {p : Prog (List X → R)} (hm : A.move n v = .step j) (hp : ps[j]? = some p) :
    A.contest C (n + 1) xs v ps = (settle p).bind fun q =>
      match nextStep q with
      | .inl o => A.contest C n xs (v ++ [.result j (o.map fun r => r xs)]) (ps.set j q)
      | .inr ⟨e, k⟩ => A.contest C n xs (v ++ [.request j ⟨e, A.answer v e⟩]) (ps.set j (k (A.answer v e))) := by
  simp only [Spy.contest, hm, hp]
  rfl

theorem contest_op {X R : Type} (A : Spy X R) (C : Contest X R) {n : Nat} {xs : List X} {v : List (Sight R)}
    {ps : List (Prog (List X → R))} {j : Nat} {e : Eff} {k : e.Resp → Prog (List X → R)} (hm : A.move n v = .step j)
    (hp : ps[j]? = some (.op e k)) (hs : settle (.op e k) = PMF.pure (.op e k)) (he : nextStep (.op e k) = .inr ⟨e, k⟩) :
    A.contest C (n + 1) xs v ps = A.contest C n xs (v ++ [.request j ⟨e, A.answer v e⟩]) (ps.set j (k (A.answer v e))) := by
  rw [contest_step A C hm hp, hs, PMF.pure_bind]
  simp only [he]

theorem contest_get {X R : Type} (A : Spy X R) (C : Contest X R) {n : Nat} {xs : List X} {v : List (Sight R)}
    {ps : List (Prog (List X → R))} {j : Nat} {p : Prog (List X → R)} {x : Bytes} {t : DataType}
    {k : (Eff.get x t).Resp → Prog (List X → R)} (r : Except IoErr Bytes)
    (hm : A.move n v = .step j) (hp : ps[j]? = some p) (hq : p = .op (.get x t) k) (ha : A.answer v (.get x t) = r) :
    A.contest C (n + 1) xs v ps = A.contest C n xs (v ++ [.request j ⟨.get x t, r⟩]) (ps.set j (k r)) := by
  subst hq ha
  exact contest_op A C hm hp rfl rfl

theorem contest_result {X R : Type} (A : Spy X R) (C : Contest X R) {n : Nat} {xs : List X} {v : List (Sight R)}
    {ps : List (Prog (List X → R))} {j : Nat} {p : Prog (List X → R)} {f : List X → R}
    (hm : A.move n v = .step j) (hp : ps[j]? = some p) (hq : p = .ret f) :
    A.contest C (n + 1) xs v ps = A.contest C n xs (v ++ [.result j (.ok (f xs))]) (ps.set j (.ret f)) := by
  subst hq
  rw [contest_step A C hm hp]
  exact PMF.pure_bind _ _

theorem contest_boxed {X R S : Type} (A : Spy X R) (C : Contest X R) {n : Nat} {xs : List X} {v : List (Sight R)}
    {ps : List (Prog (List X → R))} {j : Nat} {e : BytesN 32 → BytesN 12 → Eff}
    {k : (key : BytesN 32) → (nonce : BytesN 12) → (e key nonce).Resp → Prog S} {f : S → Prog (List X → R)} (hm : A.move n v = .step j)
    (hp : ps[j]? = some (((randBytes 32).bind fun key => (randBytes 12).bind fun nonce => .op (e key nonce) (k key nonce)).bind f))
    (he : ∀ key nonce, settle ((Prog.op (e key nonce) (k key nonce)).bind f) = PMF.pure ((Prog.op (e key nonce) (k key nonce)).bind f)) :
    A.contest C (n + 1) xs v ps = (unif 32).bind fun key => (unif 12).bind fun nonce =>
      A.contest C n xs (v ++ [.request j ⟨e key nonce, A.answer v (e key nonce)⟩])
        (ps.set j ((k key nonce (A.answer v (e key nonce))).bind f)) := by
  rw [contest_step A C hm hp]
  refine (PMF.bind_bind _ _ _).trans (congrArg (PMF.bind _) (funext fun key => ?_))
  refine (PMF.bind_bind _ _ _).trans (congrArg (PMF.bind _) (funext fun nonce => ?_))
  refine (congrArg (fun m => PMF.bind m _) (he key nonce)).trans ((PMF.pure_bind _ _).trans ?_)
  rfl

theorem contest_put {X R : Type} (A : Spy X R) (C : Contest X R) {n : Nat} {xs : List X} {v : List (Sight R)}
    {ps : List (Prog (List X → R))} {j : Nat} {p : Prog (List X → R)} {x : Bytes} {t : DataType} {b : Bytes}
    {k : (Eff.put x t b).Resp → Prog (List X → R)} (r : Except IoErr Unit)
    (hm : A.move n v = .step j) (hp : ps[j]? = some p) (hq : p = .op (.put x t b) k) (ha : A.answer v (.put x t b) = r) :
    A.contest C (n + 1) xs v ps = A.contest C n xs (v ++ [.request j ⟨.put x t b, r⟩]) (ps.set j (k r)) := by
  subst hq ha
  exact contest_op A C hm hp rfl rfl

/-- Whatever is drawn, the game ends the same way. -/
theorem contest_sure {X R : Type} (A : Spy X R) (C : Contest X R) {n l : Nat} {xs : List X} {v : List (Sight R)}
    {ps : List (Prog (List X → R))} {j : Nat} {f : BytesN l → Prog (List X → R)} {b : Bool} (hm : A.move n v = .step j)
    (hp : ps[j]? = some ((randBytes l).bind f)) (h : ∀ x, A.contest C (n + 1) xs v (ps.set j (f x)) = PMF.pure b) :
    A.contest C (n + 1) xs v ps = PMF.pure b := by
  rw [contest_step A C hm hp]
  refine (PMF.bind_bind (unif l) (fun x => settle (f x)) _).trans ?_
  have hj : j < ps.length := by
    by_contra hj
    rw [List.getElem?_eq_none (by omega)] at hp
    exact nomatch hp
  have : ∀ x, (settle (f x)).bind (fun q =>
      match nextStep q with
      | .inl o => A.contest C n xs (v ++ [.result j (o.map fun r => r xs)]) (ps.set j q)
      | .inr ⟨e, k⟩ => A.contest C n xs (v ++ [.request j ⟨e, A.answer v e⟩]) (ps.set j (k (A.answer v e)))) = PMF.pure b := by
    intro x
    have hx := h x
    rw [contest_step A C hm (List.getElem?_set_self hj)] at hx
    simp only [List.set_set] at hx
    exact hx
  rw [funext this, PMF.bind_const]

end D1
