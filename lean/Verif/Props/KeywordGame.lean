import Verif.Proofs.Spy
import Verif.Props.IndexLeak
import Verif.Props.Confidential
/-!
# C97: the keywords of the index are secret

As in C95 the adversary is the IO Provider and the clock, decides which calls of the index are made and how their steps are
interleaved, and sees all requests and all results.  It does not know the index key.  For each call it proposes two keywords,
such that the same keyword is proposed again on one side whenever it is on the other, and in all calls of one game the left
ones are taken, or the right ones.  It has to tell which.
-/
namespace D1
open Spec Prog

/-! ## Specification -/

/-- Two keywords can be proposed after others: either both are old and were proposed together, or both are new. -/
def Paired (h : List (GoString × GoString)) (l r : GoString) : Bool := h.all fun p => decide (p.1 = l) == decide (p.2 = r)

/-- `n` moves of the adversary; a challenge is a call with another keyword. -/
noncomputable def Spy.runKw {R : Type} (A : Spy (IxCall × GoString) R) (prog : IxCall → Prog R) (right : Bool) :
    Nat → List (GoString × GoString) → List (Sight R) → List (Prog R) → PMF (List (Sight R))
  | 0, _, v, _ => PMF.pure v
  | n + 1, h, v, ps =>
    match A.move n v with
    | .stop => PMF.pure v
    | .begin x =>
      if Paired h x.1.keyword x.2 then
        (settle (prog (if right then x.1.withKeyword x.2 else x.1))).bind fun p =>
          A.runKw prog right n ((x.1.keyword, x.2) :: h) v (ps ++ [p])
      else A.runKw prog right n h v ps
    | .other p => (settle p).bind fun p => A.runKw prog right n h v (ps ++ [p])
    | .step j =>
      match ps[j]? with
      | none => A.runKw prog right n h v ps
      | some p =>
        match nextStep p with
        | .inl o => A.runKw prog right n h (v ++ [.result j o]) ps
        | .inr ⟨e, k⟩ => (settle (k (A.answer v e))).bind fun p =>
            A.runKw prog right n h (v ++ [.request j ⟨e, A.answer v e⟩]) (ps.set j p)

/-- The index with a given key. -/
def SecureIndex.withKey (i : SecureIndex) (key : BytesN 32) : SecureIndex := { i with indexKey := key.1 }

/-- The game: a random key, `n` moves, and the guess. -/
noncomputable def keywordGame {R : Type} (P : Prims) (i : SecureIndex) (fuel : Nat) (report : IxRes → R)
    (A : Spy (IxCall × GoString) R) (n : Nat) (right : Bool) : PMF Bool :=
  (unif 32).bind fun key =>
    (A.runKw (fun c => (ixProg P (i.withKey key) fuel c).bind fun r => .ret (report r)) right n [] [] []).map A.guess

/-! ## The attack -/

/-- A call of the index, given the keys of its keyword. -/
def ixKeyed (P : Prims) (i : SecureIndex) (fuel : Nat) (k1 k2 : Bytes) : IxCall → Prog IxRes
  | .add t _ id => (i.verifyAccess t).bind fun _ => (getLastNode P fuel ⟨k1⟩ ⟨k2⟩).bind fun last =>
      (Prog.ofPanic (last.nextLabel P ⟨k1⟩)).bind fun label =>
        ((⟨id, (last.nextCounter + 1) % 2 ^ 64⟩ : Node).seal P label ⟨k2⟩).bind fun sn =>
          (putSealedNode label sn false).bind fun _ => .ret .unit
  | .search t _ => (i.verifyAccess t).bind fun _ => (searchLoop P ⟨k1⟩ ⟨k2⟩ fuel zeroNode []).bind fun l => .ret (.ids l)
  | .delete t _ id => (i.verifyAccess t).bind fun _ => (deleteLoop P ⟨k1⟩ ⟨k2⟩ id fuel zeroNode).bind fun _ => .ret .unit

theorem ixKeyed_keyword (P : Prims) (i : SecureIndex) (fuel : Nat) (k1 k2 : Bytes) (c : IxCall) (kw : GoString) :
    ixKeyed P i fuel k1 k2 (c.withKeyword kw) = ixKeyed P i fuel k1 k2 c := by cases c <;> rfl

theorem ixProg_body {P : Prims} (L : P.Laws) (i : SecureIndex) (fuel : Nat) (key : BytesN 32) (c : IxCall) :
    ixProg P (i.withKey key) fuel c =
      ixKeyed P i fuel (derived P key (labelLabel, c.keyword)) (derived P key (labelId, c.keyword)) c := by
  have hk : (i.withKey key).indexKey.length = 32 := key.2
  have hd : ∀ (a kw : Bytes), derived P key (a, kw) = P.sponge 136 (kmacInput 136 key.1 a kw 32) 32 := by
    intro a kw
    rw [derived, kmacKdf_eq P 32 key.1 a [kw] (by rw [key.2]) (by omega)]
    simp
  have hg : ∀ kw, (i.withKey key).getTaggerAndCryptor P kw =
      .ret (⟨derived P key (labelLabel, kw)⟩, ⟨derived P key (labelId, kw)⟩) := by
    intro kw
    rw [gtc_eq L hk, hd, hd]
    rfl
  cases c <;>
    simp only [ixProg, SecureIndex.add, SecureIndex.search, SecureIndex.delete, Prog.bind_eq, Prog.bind_assoc, hg,
      Prog.ret_bind, ixKeyed, IxCall.keyword] <;> rfl

/-- An adversary that draws what a program draws. -/
def tosses {Q α : Type} {S : Q → Type} : Prog α → (Prog α → OAdv Q S) → OAdv Q S
  | .op (.rand n) k, K => .toss n fun b => tosses (k (some b : Option (BytesN n))) K
  | p, K => K p

/-- The attack on the key derivation: ask for the keys of each keyword. -/
def Spy.kdfTree {R : Type} (A : Spy (IxCall × GoString) R) (body : Bytes → Bytes → IxCall → Prog R) (right : Bool) :
    Nat → List (GoString × GoString) → List (Sight R) → List (Prog R) → OAdv (Bytes × Bytes) fun _ => Bytes
  | 0, _, v, _ => .done (A.guess v)
  | n + 1, h, v, ps =>
    match A.move n v with
    | .stop => .done (A.guess v)
    | .begin x =>
      if Paired h x.1.keyword x.2 then
        .ask (labelLabel, if right then x.2 else x.1.keyword) fun k1 =>
          .ask (labelId, if right then x.2 else x.1.keyword) fun k2 =>
            tosses (body k1 k2 x.1) fun p => A.kdfTree body right n ((x.1.keyword, x.2) :: h) v (ps ++ [p])
      else A.kdfTree body right n h v ps
    | .other p => tosses p fun p => A.kdfTree body right n h v (ps ++ [p])
    | .step j =>
      match ps[j]? with
      | none => A.kdfTree body right n h v ps
      | some p =>
        match nextStep p with
        | .inl o => A.kdfTree body right n h (v ++ [.result j o]) ps
        | .inr ⟨e, k⟩ => tosses (k (A.answer v e)) fun p =>
            A.kdfTree body right n h (v ++ [.request j ⟨e, A.answer v e⟩]) (ps.set j p)

/-- The attack that an adversary on the index amounts to. -/
def kdfAttack {R : Type} (P : Prims) (i : SecureIndex) (fuel : Nat) (report : IxRes → R) (A : Spy (IxCall × GoString) R)
    (n : Nat) (right : Bool) : OAdv (Bytes × Bytes) fun _ => Bytes :=
  A.kdfTree (fun k1 k2 c => (ixKeyed P i fuel k1 k2 c).bind fun r => .ret (report r)) right n [] [] []

/-! ## With the real key derivation it is the game -/

theorem play_tosses {Q σ α : Type} {S : Q → Type} (oracle : (q : Q) → σ → PMF (S q × σ)) (s : σ) (K : Prog α → OAdv Q S)
    (F : Prog α → PMF Bool) (hK : ∀ p, (K p).play oracle s = F p) (p : Prog α) :
    (tosses p K).play oracle s = (settle p).bind F := by
  induction p with
  | op e k ih =>
    cases e with
    | rand n =>
      simp only [tosses, OAdv.play, settle, PMF.bind_bind]
      congr 1; funext b; exact ih _
    | _ => simp only [tosses, settle, PMF.pure_bind, hK]
  | _ => simp only [tosses, settle, PMF.pure_bind, hK]

theorem play_kdf {R : Type} (oracle : Bytes × Bytes → Bytes) (body : Bytes → Bytes → IxCall → Prog R)
    (prog : IxCall → Prog R)
    (hb : ∀ k1 k2 c kw, body k1 k2 (c.withKeyword kw) = body k1 k2 c)
    (hp : ∀ c, prog c = body (oracle (labelLabel, c.keyword)) (oracle (labelId, c.keyword)) c)
    (A : Spy (IxCall × GoString) R) (right : Bool) :
    ∀ (n : Nat) (h : List (GoString × GoString)) (v : List (Sight R)) (ps : List (Prog R)),
      (A.kdfTree body right n h v ps).play (fun q _ => PMF.pure (oracle q, ())) () = (A.runKw prog right n h v ps).map A.guess := by
  have hw : ∀ (c : IxCall) kw, (c.withKeyword kw).keyword = kw := fun c kw => by cases c <;> rfl
  intro n
  induction n with
  | zero => intros; simp only [Spy.kdfTree, Spy.runKw, OAdv.play, PMF.pure_map]
  | succ n ih =>
    intro h v ps
    simp only [Spy.kdfTree, Spy.runKw]
    cases A.move n v with
    | stop => simp only [OAdv.play, PMF.pure_map]
    | begin x =>
      simp only
      split
      · simp only [OAdv.play, PMF.pure_bind, PMF.map_bind]
        rw [play_tosses _ _ _ _ fun p => ih _ _ _]
        congr 2
        cases right
        · simp only [Bool.false_eq_true, if_false, hp]
        · simp only [if_true, hp, hb, hw]
      · exact ih _ _ _
    | other p =>
      simp only [PMF.map_bind]
      exact play_tosses _ _ _ _ (fun p => ih _ _ _) _
    | step j =>
      simp only
      cases ps[j]? with
      | none => exact ih _ _ _
      | some p =>
        simp only
        cases nextStep p with
        | inl o => exact ih _ _ _
        | inr x =>
          simp only [PMF.map_bind]
          exact play_tosses _ _ _ _ (fun p => ih _ _ _) _

/-! ## With random keys both sides are the same -/

/-- The tables of the two sides hold the same answers. -/
structure SameTables (h : List (GoString × GoString)) (T U : List ((Bytes × Bytes) × Bytes)) : Prop where
  inj : ∀ p ∈ h, ∀ q ∈ h, p.1 = q.1 ↔ p.2 = q.2
  old : ∀ p ∈ h, ∀ a, T.lookup (a, p.1) = U.lookup (a, p.2)
  left : ∀ kw, kw ∉ h.map Prod.fst → ∀ a, T.lookup (a, kw) = none
  right : ∀ kw, kw ∉ h.map Prod.snd → ∀ a, U.lookup (a, kw) = none

theorem Paired.iff {h : List (GoString × GoString)} {l r : GoString} (hp : Paired h l r = true) :
    ∀ p ∈ h, p.1 = l ↔ p.2 = r := by
  intro p hm
  have := List.all_eq_true.mp hp p hm
  simpa using this

theorem SameTables.pair {h : List (GoString × GoString)} {T U : List ((Bytes × Bytes) × Bytes)} (hs : SameTables h T U)
    {l r : GoString} (hp : Paired h l r = true) : SameTables ((l, r) :: h) T U := by
  have hp := Paired.iff hp
  refine ⟨?_, ?_, ?_, ?_⟩
  · intro p hpm q hq
    rcases List.mem_cons.mp hpm with rfl | h1 <;> rcases List.mem_cons.mp hq with rfl | h2
    · simp
    · exact ⟨fun e => ((hp q h2).mp e.symm).symm, fun e => ((hp q h2).mpr e.symm).symm⟩
    · exact hp p h1
    · exact hs.inj p h1 q h2
  · intro p hpm a
    rcases List.mem_cons.mp hpm with rfl | h1
    · by_cases hl : l ∈ h.map Prod.fst
      · obtain ⟨q, hq, he⟩ := List.mem_map.mp hl
        have h2 := (hp q hq).mp he
        have := hs.old q hq a
        rwa [he, h2] at this
      · by_cases hr : r ∈ h.map Prod.snd
        · obtain ⟨q, hq, he⟩ := List.mem_map.mp hr
          exact absurd (List.mem_map.mpr ⟨q, hq, (hp q hq).mpr he⟩) hl
        · rw [hs.left l hl a, hs.right r hr a]
    · exact hs.old p h1 a
  · intro kw hk
    exact hs.left kw fun hm => hk (by simp [hm])
  · intro kw hk
    exact hs.right kw fun hm => hk (by simp [hm])

theorem SameTables.add {h : List (GoString × GoString)} {T U : List ((Bytes × Bytes) × Bytes)} (hs : SameTables h T U)
    {l r : GoString} (hm : (l, r) ∈ h) (a x : Bytes) : SameTables h (((a, l), x) :: T) (((a, r), x) :: U) := by
  refine ⟨hs.inj, ?_, ?_, ?_⟩
  · intro p hp b
    have := hs.inj p hp _ hm
    simp only [List.lookup_cons]
    by_cases hb : b = a ∧ p.1 = l
    · obtain ⟨rfl, hl⟩ := hb
      have hr := this.mp hl
      simp only at hr
      simp [hl, hr]
    · have h1 : ((b, p.1) == (a, l)) = false := by simpa using hb
      have h2 : ((b, p.2) == (a, r)) = false := by
        simp only [beq_eq_false_iff_ne, ne_eq, Prod.mk.injEq]
        exact fun ⟨e1, e2⟩ => hb ⟨e1, this.mpr e2⟩
      rw [h1, h2]
      exact hs.old p hp b
  · intro kw hk b
    have : kw ≠ l := fun e => hk (e ▸ List.mem_map.mpr ⟨_, hm, rfl⟩)
    have h1 : ((b, kw) == (a, l)) = false := by simp [this]
    rw [List.lookup_cons, h1]
    exact hs.left kw hk b
  · intro kw hk b
    have : kw ≠ r := fun e => hk (e ▸ List.mem_map.mpr ⟨_, hm, rfl⟩)
    have h1 : ((b, kw) == (a, r)) = false := by simp [this]
    rw [List.lookup_cons, h1]
    exact hs.right kw hk b

theorem random_ask {h : List (GoString × GoString)} {T U : List ((Bytes × Bytes) × Bytes)} (hs : SameTables h T U)
    {l r : GoString} (hm : (l, r) ∈ h) (a : Bytes) {k k' : Bytes → OAdv (Bytes × Bytes) fun _ => Bytes}
    (hk : ∀ x T U, SameTables h T U → (k x).play kdfRandom T = (k' x).play kdfRandom U) :
    (OAdv.ask (a, l) k).play kdfRandom T = (OAdv.ask (a, r) k').play kdfRandom U := by
  have ho : T.lookup (a, l) = U.lookup (a, r) := hs.old _ hm a
  simp only [OAdv.play, kdfRandom, ho]
  cases U.lookup (a, r) with
  | some x => simp only [PMF.pure_bind]; exact hk x T U hs
  | none =>
    simp only [PMF.bind_bind, PMF.pure_bind]
    congr 1; funext x
    exact hk x.1 _ _ (hs.add hm a x.1)

theorem random_tosses {Q σ α : Type} {S : Q → Type} (oracle : (q : Q) → σ → PMF (S q × σ)) {K K' : Prog α → OAdv Q S} {s t : σ}
    (hK : ∀ p, (K p).play oracle s = (K' p).play oracle t) (p : Prog α) :
    (tosses p K).play oracle s = (tosses p K').play oracle t := by
  induction p with
  | op e k ih =>
    cases e with
    | rand n =>
      simp only [tosses, OAdv.play]
      congr 1; funext b; exact ih _
    | _ => simp only [tosses, hK]
  | _ => simp only [tosses, hK]

theorem random_kdf {R : Type} (body : Bytes → Bytes → IxCall → Prog R) (A : Spy (IxCall × GoString) R) :
    ∀ (n : Nat) (h : List (GoString × GoString)) (v : List (Sight R)) (ps : List (Prog R)) (T U : List ((Bytes × Bytes) × Bytes)),
      SameTables h T U → (A.kdfTree body false n h v ps).play kdfRandom T = (A.kdfTree body true n h v ps).play kdfRandom U := by
  intro n
  induction n with
  | zero => intros; rfl
  | succ n ih =>
    intro h v ps T U hs
    simp only [Spy.kdfTree]
    cases A.move n v with
    | stop => rfl
    | begin x =>
      simp only
      split
      · next hp =>
        simp only [Bool.false_eq_true, if_false, if_true]
        refine random_ask (hs.pair hp) (by simp) _ fun k1 T U hs => ?_
        refine random_ask hs (by simp) _ fun k2 T U hs => ?_
        exact random_tosses _ (fun p => ih _ _ _ _ _ hs) _
      · exact ih _ _ _ _ _ hs
    | other p => exact random_tosses _ (fun p => ih _ _ _ _ _ hs) _
    | step j =>
      simp only
      cases ps[j]? with
      | none => exact ih _ _ _ _ _ hs
      | some p =>
        simp only
        cases nextStep p with
        | inl o => exact ih _ _ _ _ _ hs
        | inr x => exact random_tosses _ (fun p => ih _ _ _ _ _ hs) _

/-- C97: whoever can tell which keywords are used can tell derived keys from random ones. -/
theorem C97_keywords {P : Prims} (L : P.Laws) (i : SecureIndex) (fuel : Nat) {R : Type} (report : IxRes → R)
    (A : Spy (IxCall × GoString) R) (n : Nat) :
    gap (keywordGame P i fuel report A n false) (keywordGame P i fuel report A n true) ≤
      kdfGap P (kdfAttack P i fuel report A n false) + kdfGap P (kdfAttack P i fuel report A n true) := by
  have h1 : ∀ right, keywordGame P i fuel report A n right =
      (unif 32).bind fun key => (kdfAttack P i fuel report A n right).play (kdfReal P key) () := by
    intro right
    simp only [keywordGame, kdfAttack]
    congr 1; funext key
    refine (play_kdf (derived P key) _ _ ?_ ?_ A right n [] [] []).symm
    · intro k1 k2 c kw; rw [ixKeyed_keyword]
    · intro c; rw [ixProg_body L]
  have h2 := random_kdf (fun k1 k2 c => (ixKeyed P i fuel k1 k2 c).bind fun r => .ret (report r)) A n [] [] []
    [] [] ⟨by simp, by simp, by simp, by simp⟩
  simp only [kdfGap, ← h1]
  rw [show (kdfAttack P i fuel report A n false).play kdfRandom [] = (kdfAttack P i fuel report A n true).play kdfRandom [] from h2]
  simp only [gap]
  rw [abs_sub_comm (chance (keywordGame P i fuel report A n true))]
  exact abs_sub_le _ _ _

/-! ## How often the attack asks -/

theorem asks_tosses {Q α : Type} {S : Q → Type} {m : Nat} {K : Prog α → OAdv Q S} (hK : ∀ p, (K p).Asks m) (p : Prog α) :
    (tosses p K).Asks m := by
  induction p with
  | op e k ih =>
    cases e with
    | rand n => exact fun b => ih _
    | _ => exact hK _
  | _ => exact hK _

/-- C97: the attack asks twice per call. -/
theorem C97_questions (P : Prims) (i : SecureIndex) (fuel : Nat) {R : Type} (report : IxRes → R)
    (A : Spy (IxCall × GoString) R) (n : Nat) (right : Bool) : (kdfAttack P i fuel report A n right).Asks (2 * n) := by
  suffices H : ∀ body, ∀ (n : Nat) (h : List (GoString × GoString)) (v : List (Sight R)) (ps : List (Prog R)),
      (A.kdfTree body right n h v ps).Asks (2 * n) from H _ n [] [] []
  intro body n
  induction n with
  | zero => intros; trivial
  | succ n ih =>
    intro h v ps
    have ih' : ∀ h v ps, (A.kdfTree body right n h v ps).Asks (2 * (n + 1)) := fun h v ps => (ih h v ps).mono (by omega)
    simp only [Spy.kdfTree]
    cases A.move n v with
    | stop => trivial
    | begin x =>
      simp only
      split
      · exact fun k1 k2 => asks_tosses (fun p => ih _ _ _) _
      · exact ih' _ _ _
    | other p => exact asks_tosses (fun p => ih' _ _ _) _
    | step j =>
      simp only
      cases ps[j]? with
      | none => exact ih' _ _ _
      | some p =>
        simp only
        cases nextStep p with
        | inl o => exact ih' _ _ _
        | inr x => exact asks_tosses (fun p => ih' _ _ _) _

/-! ## A case

With a KMAC that shows the first byte of the keyword in derived keys, and the first byte of the key in labels, the adversary
below guesses right every time. -/

open Classical in
noncomputable def leakyByte (m : Bytes) : UInt8 :=
  if h : ∃ q : Bytes × Bytes, q.1.length = 32 ∧ m = kmacInput 136 q.1 labelLabel q.2 32 then h.choose.2.headD 0
  else if h : ∃ q : Bytes × Bytes, q.1.length = 32 ∧ q.2.length * 8 < 2 ^ 64 ∧ m = kmacInput 136 q.1 q.2 [] 32 then
    h.choose.1.headD 0
  else 0

noncomputable def leakyPrims : Prims := toyPrims.withSponge fun _ m n => List.replicate n (leakyByte m)

theorem leakyLaws : leakyPrims.Laws := withSponge_laws toyLaws fun _ _ _ => List.length_replicate

theorem leaky_derived (key : BytesN 32) (kw : Bytes) :
    derived leakyPrims key (labelLabel, kw) = List.replicate 32 (kw.headD 0) := by
  rw [derived, kmacKdf_eq _ 32 key.1 labelLabel [kw] (by rw [key.2]) (by omega)]
  show List.replicate 32 (leakyByte (kmacInput 136 key.1 labelLabel ([kw] : List Bytes).flatten 32)) = _
  have hf : ([kw] : List Bytes).flatten = kw := by simp
  rw [hf]
  have h : ∃ q : Bytes × Bytes, q.1.length = 32 ∧ kmacInput 136 key.1 labelLabel kw 32 = kmacInput 136 q.1 labelLabel q.2 32 :=
    ⟨(key.1, kw), key.2, rfl⟩
  rw [leakyByte, dif_pos h]
  obtain ⟨-, -, e, -⟩ := kmacInput_inj (by omega) (by rw [key.2]; omega) (by rw [h.choose_spec.1]; omega)
    (by decide) (by decide) (by omega) (by omega) h.choose_spec.2
  rw [← e]

theorem leaky_label (b : UInt8) :
    zeroNode.nextLabel leakyPrims ⟨List.replicate 32 b⟩ = some (List.replicate 32 b) := by
  rw [Node.nextLabel, tag_eq _ _ _ (by simp)]
  show some (List.replicate 32 (leakyByte (kmacInput 136 (List.replicate 32 b) _ [] 32))) = _
  have hl : (List.replicate 32 b).length = 32 := List.length_replicate
  have hn : ¬∃ q : Bytes × Bytes, q.1.length = 32 ∧ kmacInput 136 (List.replicate 32 b)
      (J.ofBytes (some (uvarint zeroNode.nextCounter))).render [] 32 = kmacInput 136 q.1 labelLabel q.2 32 := by
    rintro ⟨q, hq, h⟩
    obtain ⟨-, e, -, -⟩ := kmacInput_inj (by omega) (by rw [hl]; omega) (by rw [hq]; omega) (renderCounter_length _)
      (by decide) (by omega) (by omega) h
    exact absurd (congrArg List.head? e) (by decide)
  have h : ∃ q : Bytes × Bytes, q.1.length = 32 ∧ q.2.length * 8 < 2 ^ 64 ∧ kmacInput 136 (List.replicate 32 b)
      (J.ofBytes (some (uvarint zeroNode.nextCounter))).render [] 32 = kmacInput 136 q.1 q.2 [] 32 :=
    ⟨(_, _), hl, renderCounter_length _, rfl⟩
  rw [leakyByte, dif_neg hn, dif_pos h]
  obtain ⟨e, -, -, -⟩ := kmacInput_inj (by omega) (by rw [hl]; omega) (by rw [h.choose_spec.1]; omega)
    (renderCounter_length _) h.choose_spec.2.1 (by omega) (by omega) h.choose_spec.2.2
  rw [← e]
  rfl

/-- The adversary has one keyword searched for, and looks at the label that is asked for. -/
def keywordSpy : Spy (IxCall × GoString) IxRes where
  answer _ e := (Store.exec (fun _ _ => none) (fun _ => none) ⟨0, 0⟩ e).1
  move
    | 1, _ => .begin (.search [65] [0], [1])
    | _, _ => .step 0
  guess v := match v with
    | [.request _ ⟨.get label _, _⟩] => label.headD 0 == 1
    | _ => false

theorem C97_case : gap (keywordGame leakyPrims toyIndex 5 id keywordSpy 2 false)
    (keywordGame leakyPrims toyIndex 5 id keywordSpy 2 true) = 1 := by
  refine gap_sure (keywordGame leakyPrims toyIndex 5 id keywordSpy 2) fun right => ?_
  have hv : toyIndex.verifyAccess [65] = .ret () := rfl
  simp only [keywordGame, ixProg_body leakyLaws]
  simp only [Spy.runKw, keywordSpy, Paired, List.all_nil, if_true, IxCall.withKeyword]
  have key : ∀ key : BytesN 32, ∃ k : Except IoErr Bytes → Prog IxRes,
      ((ixKeyed leakyPrims toyIndex 5 (derived leakyPrims key (labelLabel, (if right then IxCall.search [65] [1] else .search [65] [0]).keyword))
        (derived leakyPrims key (labelId, (if right then IxCall.search [65] [1] else .search [65] [0]).keyword))
        (if right then IxCall.search [65] [1] else .search [65] [0])).bind fun r => .ret (id r)) =
      .op (.get (List.replicate 32 (if right then 1 else 0)) dtNode) k := by
    intro key
    cases right <;>
    · simp only [Bool.false_eq_true, if_false, if_true, IxCall.keyword, ixKeyed, hv, Prog.ret_bind, searchLoop, getNextNode,
        leaky_derived, List.headD_cons, leaky_label, Prog.ofPanic, Prog.bind_eq, getSealedNode, ioGet, Prog.bind, Prog.attempt]
      exact ⟨_, rfl⟩
  choose k hk using key
  simp only [hk, settle, PMF.pure_bind, List.nil_append, List.getElem?_cons_zero, nextStep, PMF.bind_const, PMF.pure_map]
  cases right <;> rfl

end D1
