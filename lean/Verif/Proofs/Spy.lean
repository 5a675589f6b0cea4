import Verif.Spec.Spy
import Verif.Proofs.Crypto
import Verif.Proofs.Data
import Mathlib.Tactic.Linarith
/-!
# Reducing the game about programs to the games about key wrapping and AES-GCM

A program in which the sealing and opening of plaintexts is left open (`SProg`) makes the adversary of the game one that asks
an oracle for sealed and opened boxes.  Key wrapping is replaced first, and what is left are questions about AES-GCM.
-/
namespace D1
open Prog

/-! ## Boxes -/

/-- Two plaintexts of the same length to be sealed. -/
structure BoxQuery where
  left : NBytes
  right : NBytes
  aad : Bytes
  alike : right.map List.length = left.map List.length

/-- The messages have the same length if the plaintexts have. -/
theorem render_length_alike {p p' : NBytes} (h : p'.map List.length = p.map List.length) :
    (J.ofBytes p).render.length = (J.ofBytes p').render.length := by
  have key : ∀ a : Bytes, (J.ofBytes (some a)).render.length = 4 * ((a.length + 2) / 3) + 2 := by
    intro a
    have : (J.ofBytes (some a)).render = renderStr (b64Enc false a) := rfl
    rw [this, renderStr_plain _ (b64Enc_safe false a)]
    simp only [List.length_append, List.length_singleton, b64Enc_length_std]
    omega
  cases p <;> cases p'
  · rfl
  · exact nomatch h
  · exact nomatch h
  · next a b =>
    have h : b.length = a.length := Option.some.inj h
    rw [key, key, h]

/-- The side that is taken. -/
def side {α : Type} (right : Bool) (l r : α) : α := if right then r else l

/-- The message as `Cryptor.Encrypt` encrypts it. -/
def boxText (p : NBytes) : Bytes := (J.ofBytes p).render

def BoxQuery.sealQuery (q : BoxQuery) : SealQuery := ⟨boxText q.left, boxText q.right, q.aad, render_length_alike q.alike⟩

/-- Reading the message. -/
def unboxText (P : Prims) (m : Bytes) : Except Err NBytes :=
  match (P.unmarshal m).bind J.toBytes with
  | none => .error .json
  | some v => .ok v

/-- Opening with the key. -/
def openWith (P : Prims) (key aad c : Bytes) : Except Err NBytes :=
  match gcmDecrypt P c aad key with
  | .error e => .error e
  | .ok m => unboxText P m

/-- Opening with the wrapping key. -/
def boxOpen (P : Prims) (kek aad w c : Bytes) : Except Err NBytes :=
  match kwpUnwrap P kek w with
  | .error e => .error e
  | .ok key => openWith P key aad c

theorem decrypt_boxOpen (P : Prims) (c : Cryptor) (a : J) (w ct : Bytes) :
    c.decrypt P J.toBytes a w ct = boxOpen P c.kwp a.render w ct := by
  rw [Cryptor.decrypt, boxOpen]
  cases kwpUnwrap P c.kwp w with
  | error e => rfl
  | ok key =>
    simp only [openWith, unboxText]
    cases gcmDecrypt P ct a.render key with
    | error e => rfl
    | ok m =>
      simp only
      cases (P.unmarshal m).bind J.toBytes <;> rfl

/-! ## Programs in which sealing and opening is left open -/

inductive SProg (R : Type) where
  | ret (a : Reply R)
  | err (e : Err)
  | panic
  | diverge
  | secret (l r ad : NBytes)
  | op (e : Eff) (k : e.Resp → SProg R)
  | box (q : BoxQuery) (k : Bytes × Bytes → SProg R)
  | unbox (aad w c : Bytes) (ad : NBytes)

namespace SProg
variable {R β : Type}

/-- Go on after a program. -/
def after : Prog β → (β → SProg R) → SProg R
  | .ret a, k => k a
  | .err e, _ => err e
  | .panic, _ => panic
  | .diverge, _ => diverge
  | .op e c, k => op e fun r => after (c r) k

def lift (p : Prog (Reply R)) : SProg R := after p ret

/-- The program with the boxes sealed and opened. -/
def expand (P : Prims) (kek : BytesN 32) (right : Bool) : SProg R → Prog (Reply R)
  | ret a => .ret a
  | err e => .err e
  | panic => .panic
  | diverge => .diverge
  | secret l r ad => .ret (.opened (side right l r) ad)
  | op e k => .op e fun r => (k r).expand P kek right
  | box q k => (randBytes 32).bind fun key => (randBytes 12).bind fun nonce =>
      (k (kwpBox P kek.1 key.1, gcmBox P key.1 nonce.1 q.aad (boxText (side right q.left q.right)))).expand P kek right
  | unbox aad w c ad => match boxOpen P kek.1 aad w c with
    | .error e => .err e
    | .ok p => .ret (.opened p ad)

theorem expand_after (P : Prims) (kek : BytesN 32) (right : Bool) (p : Prog β) (k : β → SProg R) :
    (after p k).expand P kek right = p.bind fun a => (k a).expand P kek right := by
  induction p with
  | op e c ih => simp only [after, expand, Prog.bind]; congr 1; funext r; exact ih r
  | _ => rfl

theorem expand_lift (P : Prims) (kek : BytesN 32) (right : Bool) (p : Prog (Reply R)) :
    (lift p).expand P kek right = p := by
  rw [lift, expand_after]
  simp only [expand]
  exact Prog.bind_ret p

end SProg

/-- Questions about boxes. -/
inductive BoxAsk where
  | seal (q : BoxQuery)
  | open (aad w c : Bytes)

/-- An opened box is the one that was made for a pair of plaintexts, or has contents. -/
def BoxAsk.Ans : BoxAsk → Type
  | .seal _ => Bytes × Bytes
  | .open _ _ _ => Except Err (NBytes ⊕ NBytes × NBytes)

abbrev BoxAdv : Type := OAdv BoxAsk BoxAsk.Ans

namespace SProg
variable {R : Type}

/-- The end of a program that opens a box. -/
def told (ad : NBytes) : Except Err (NBytes ⊕ NBytes × NBytes) → SProg R
  | .error e => .err e
  | .ok (.inl p) => .ret (.opened p ad)
  | .ok (.inr x) => .secret x.1 x.2 ad

/-- What the adversary against the oracle does while a program draws, seals and opens. -/
def tree : SProg R → (SProg R → BoxAdv) → BoxAdv
  | op (.rand n) k, K => .toss n fun b => (k (some b : Option (BytesN n))).tree K
  | box q k, K => .ask (.seal q) fun r => (k r).tree K
  | unbox aad w c ad, K => .ask (.open aad w c) fun r => K (told ad r)
  | p, K => K p

/-- As for `Prog`, with results masked. -/
def next (h : List (NBytes × NBytes)) : SProg R → Outcome (Reply R) ⊕ ((e : Eff) × (e.Resp → SProg R))
  | ret a => .inl (.ok (a.masked h))
  | err e => .inl (.err e)
  | panic => .inl .panic
  | diverge => .inl .diverge
  | secret l r ad => .inl (.ok (if l = r then (Reply.opened l ad).masked h else .hidden ad))
  | op e k => .inr ⟨e, k⟩
  | box _ _ => .inl .diverge
  | unbox _ _ _ _ => .inl .diverge

/-- A program with nothing left to draw, seal or open. -/
def Calm : SProg R → Prop
  | op (.rand _) _ => False
  | box _ _ => False
  | unbox _ _ _ _ => False
  | _ => True

/-- The plaintexts come from pairs that were named. -/
def Named (h : List (NBytes × NBytes)) : SProg R → Prop
  | op _ k => ∀ r, (k r).Named h
  | box q k => (q.left, q.right) ∈ h ∧ ∀ r, (k r).Named h
  | secret l r _ => (l, r) ∈ h
  | _ => True

theorem Named.mono {h h' : List (NBytes × NBytes)} (hs : ∀ x ∈ h, x ∈ h') {p : SProg R} (hp : p.Named h) : p.Named h' := by
  induction p with
  | op e k ih => exact fun r => ih r (hp r)
  | box q k ih => exact ⟨hs _ hp.1, fun r => ih r (hp.2 r)⟩
  | secret l r ad => exact hs _ hp
  | _ => trivial

theorem named_after {β : Type} {h : List (NBytes × NBytes)} {k : β → SProg R} (p : Prog β) (hk : ∀ a, (k a).Named h) :
    (after p k).Named h := by
  induction p with
  | op e c ih => exact fun r => ih r
  | ret a => exact hk a
  | _ => trivial

theorem named_lift (h : List (NBytes × NBytes)) (p : Prog (Reply R)) : (lift p).Named h := named_after p fun _ => trivial

/-- At most `n` boxes are sealed or opened. -/
def Boxes : Nat → SProg R → Prop
  | n, op _ k => ∀ r, (k r).Boxes n
  | 0, box _ _ => False
  | n + 1, box _ k => ∀ r, (k r).Boxes n
  | 0, unbox _ _ _ _ => False
  | _, _ => True

theorem boxes_after {β : Type} {n : Nat} {k : β → SProg R} (p : Prog β) (hk : ∀ a, (k a).Boxes n) : (after p k).Boxes n := by
  induction p with
  | op e c ih => exact fun r => ih r
  | ret a => exact hk a
  | _ => cases n <;> trivial

theorem boxes_lift (n : Nat) (p : Prog (Reply R)) : (lift p).Boxes n := boxes_after p fun _ => by cases n <;> trivial

end SProg

/-! ## The adversary as one that asks an oracle -/

def Spy.tree {X R : Type} (A : Spy X (Reply R)) (pairs : X → List (NBytes × NBytes)) (S : X → SProg R) :
    Nat → List (NBytes × NBytes) → List (Sight (Reply R)) → List (SProg R) → BoxAdv
  | 0, _, v, _ => .done (A.guess v)
  | n + 1, h, v, ps =>
    match A.move n v with
    | .stop => .done (A.guess v)
    | .begin x => (S x).tree fun p => A.tree pairs S n (pairs x ++ h) v (ps ++ [p])
    | .other p => (SProg.lift p).tree fun p => A.tree pairs S n h v (ps ++ [p])
    | .step j =>
      match ps[j]? with
      | none => A.tree pairs S n h v ps
      | some p =>
        match p.next h with
        | .inl o => A.tree pairs S n h (v ++ [.result j o]) ps
        | .inr ⟨e, k⟩ => (k (A.answer v e)).tree fun p =>
            A.tree pairs S n h (v ++ [.request j ⟨e, A.answer v e⟩]) (ps.set j p)

/-- What is remembered of a box, with its key or something that stands for the key. -/
structure BoxRec (κ : Type) where
  aad : Bytes
  w : Bytes
  c : Bytes
  left : NBytes
  right : NBytes
  key : κ

/-- The plaintexts of a box that was made. -/
def issued {κ : Type} (T : List (BoxRec κ)) (aad w c : Bytes) : Option (NBytes × NBytes) :=
  (T.find? fun e => e.aad = aad ∧ e.w = w ∧ e.c = c).map fun e => (e.left, e.right)

/-- The wrapped keys that were handed out, with what they stand for. -/
def handed {κ : Type} (T : List (BoxRec κ)) : List (Bytes × κ) := T.map fun e => (e.w, e.key)

noncomputable def boxReal (P : Prims) (kek : BytesN 32) (right : Bool) :
    (q : BoxAsk) → List (BoxRec (BytesN 32)) → PMF (q.Ans × List (BoxRec (BytesN 32)))
  | .seal q, T => (unif 32).bind fun key => (unif 12).bind fun nonce =>
      let w := kwpBox P kek.1 key.1
      let c := gcmBox P key.1 nonce.1 q.aad (boxText (side right q.left q.right))
      PMF.pure ((w, c), ⟨q.aad, w, c, q.left, q.right, key⟩ :: T)
  | .open aad w c, T => PMF.pure (match issued T aad w c with
      | some x => .ok (.inr x)
      | none => (boxOpen P kek.1 aad w c).map Sum.inl, T)

/-- The boxes can be opened and were named. -/
def GoodRecs (P : Prims) (kek : BytesN 32) (right : Bool) (h : List (NBytes × NBytes)) (T : List (BoxRec (BytesN 32))) : Prop :=
  ∀ e ∈ T, boxOpen P kek.1 e.aad e.w e.c = .ok (side right e.left e.right) ∧ (e.left, e.right) ∈ h

theorem boxOpen_box {P : Prims} (L : P.Laws) (kek key : BytesN 32) (nonce : BytesN 12) (aad : Bytes) (p : NBytes) :
    boxOpen P kek.1 aad (kwpBox P kek.1 key.1) (gcmBox P key.1 nonce.1 aad (boxText p)) = .ok p := by
  rw [boxOpen, kwpUnwrap_box L _ _ key.2]
  simp only [openWith, gcmDecrypt_box L key.1 aad (boxText p) nonce key.2]
  rw [unboxText, boxText, L.unmarshal_render]
  cases p with
  | none => rfl
  | some b => simp [J.ofBytes, J.san, J.toBytes, sanitize_b64, b64Dec_enc]

/-! ### The game is a question to the oracle -/

/-- The plaintexts cannot be told apart from what is shown. -/
theorem masked_secret {R : Type} {h : List (NBytes × NBytes)} {l r : NBytes} (hm : (l, r) ∈ h) (right : Bool) (ad : NBytes) :
    (Reply.opened (side right l r) ad : Reply R).masked h = if l = r then (Reply.opened l ad).masked h else .hidden ad := by
  split
  · next e => subst e; cases right <;> rfl
  · next e =>
    rw [Reply.masked, if_pos]
    refine List.any_eq_true.mpr ⟨_, hm, ?_⟩
    cases right <;> simp [side, e]

theorem GoodRecs.mono {P : Prims} {kek : BytesN 32} {right : Bool} {h h' : List (NBytes × NBytes)}
    (hs : ∀ x ∈ h, x ∈ h') {T : List (BoxRec (BytesN 32))} (hT : GoodRecs P kek right h T) : GoodRecs P kek right h' T :=
  fun e he => ⟨(hT e he).1, hs _ (hT e he).2⟩

theorem issued_spec {κ : Type} {T : List (BoxRec κ)} {aad w c : Bytes} {x : NBytes × NBytes} (h : issued T aad w c = some x) :
    ∃ e ∈ T, e.aad = aad ∧ e.w = w ∧ e.c = c ∧ x = (e.left, e.right) := by
  obtain ⟨e, he, rfl⟩ := Option.map_eq_some_iff.mp h
  have := List.find?_some he
  simp only [decide_eq_true_eq] at this
  exact ⟨e, List.mem_of_find?_eq_some he, this.1, this.2.1, this.2.2, rfl⟩

theorem play_tree {R : Type} {P : Prims} (L : P.Laws) (kek : BytesN 32) (right : Bool) {h : List (NBytes × NBytes)}
    (K : SProg R → BoxAdv) (F : Prog (Reply R) → PMF Bool)
    (hK : ∀ (p : SProg R) T, p.Calm → p.Named h → GoodRecs P kek right h T →
      (K p).play (boxReal P kek right) T = F (p.expand P kek right)) (p : SProg R) :
    ∀ T, p.Named h → GoodRecs P kek right h T →
      (p.tree K).play (boxReal P kek right) T = (settle (p.expand P kek right)).bind F := by
  induction p with
  | op e k ih =>
    intro T hn hT
    cases e with
    | rand n =>
      simp only [SProg.tree, OAdv.play, SProg.expand, settle, PMF.bind_bind]
      congr 1; funext b; exact ih _ T (hn _) hT
    | _ => exact (hK (.op _ k) T trivial hn hT).trans (by simp only [SProg.expand, settle, PMF.pure_bind])
  | box q k ih =>
    intro T hn hT
    simp only [SProg.tree, OAdv.play, SProg.expand, boxReal, randBytes, Prog.bind, settle, PMF.bind_bind, PMF.pure_bind]
    congr 1; funext key; congr 1; funext nonce
    refine ih _ _ (hn.2 _) fun e he => ?_
    rcases List.mem_cons.mp he with rfl | he
    · exact ⟨boxOpen_box L kek key nonce q.aad _, hn.1⟩
    · exact hT e he
  | unbox aad w c ad =>
    intro T hn hT
    simp only [SProg.tree, OAdv.play, SProg.expand, boxReal, PMF.pure_bind]
    cases hi : issued T aad w c with
    | some x =>
      obtain ⟨e, he, rfl, rfl, rfl, rfl⟩ := issued_spec hi
      obtain ⟨ho, hm⟩ := hT e he
      simp only [SProg.told, ho, settle, PMF.pure_bind]
      exact hK (.secret e.left e.right ad) T trivial hm hT
    | none =>
      cases ho : boxOpen P kek.1 aad w c with
      | error e =>
        simp only [Except.map, SProg.told, settle, PMF.pure_bind]
        exact hK (.err e) T trivial trivial hT
      | ok p =>
        simp only [Except.map, SProg.told, settle, PMF.pure_bind]
        exact hK (.ret (.opened p ad)) T trivial trivial hT
  | ret a => intro T hn hT; exact (hK (.ret a) T trivial hn hT).trans (by simp only [SProg.expand, settle, PMF.pure_bind])
  | err e => intro T hn hT; exact (hK (.err e) T trivial hn hT).trans (by simp only [SProg.expand, settle, PMF.pure_bind])
  | panic => intro T hn hT; exact (hK .panic T trivial hn hT).trans (by simp only [SProg.expand, settle, PMF.pure_bind])
  | diverge => intro T hn hT; exact (hK .diverge T trivial hn hT).trans (by simp only [SProg.expand, settle, PMF.pure_bind])
  | secret l r ad =>
    intro T hn hT
    exact (hK (.secret l r ad) T trivial hn hT).trans (by simp only [SProg.expand, settle, PMF.pure_bind])

theorem next_expand {R : Type} (P : Prims) (kek : BytesN 32) (right : Bool) {h : List (NBytes × NBytes)} {p : SProg R}
    (hc : p.Calm) (hn : p.Named h) :
    match p.next h with
    | .inl o => ∃ o', nextStep (p.expand P kek right) = .inl o' ∧ maskOutcome h o' = o
    | .inr ⟨e, k⟩ => nextStep (p.expand P kek right) = .inr ⟨e, fun r => (k r).expand P kek right⟩ ∧ ∀ r, (k r).Named h := by
  cases p with
  | box q k => exact hc.elim
  | unbox aad w c ad => exact hc.elim
  | secret l r ad => exact ⟨_, rfl, congrArg Outcome.ok (masked_secret hn right ad)⟩
  | op e k => exact ⟨rfl, hn⟩
  | _ => exact ⟨_, rfl, rfl⟩

/-- What is run for the challenges. -/
def challenges {X R : Type} (P : Prims) (pairs : X → List (NBytes × NBytes)) (S : X → SProg R) (kek : BytesN 32) (right : Bool) :
    Challenges X R := ⟨pairs, fun x => (S x).expand P kek right⟩

theorem play_spy {X R : Type} {P : Prims} (L : P.Laws) (A : Spy X (Reply R)) {pairs : X → List (NBytes × NBytes)} {S : X → SProg R}
    (hS : ∀ x, (S x).Named (pairs x)) (kek : BytesN 32) (right : Bool) :
    ∀ (n : Nat) (h : List (NBytes × NBytes)) (v : List (Sight (Reply R))) (ps : List (SProg R)) (T : List (BoxRec (BytesN 32))),
      (∀ p ∈ ps, p.Calm ∧ p.Named h) → GoodRecs P kek right h T →
      (A.tree pairs S n h v ps).play (boxReal P kek right) T =
        (A.run (challenges P pairs S kek right) n h v (ps.map (·.expand P kek right))).map A.guess := by
  intro n
  induction n with
  | zero => intro h v ps T _ _; simp only [Spy.tree, Spy.run, OAdv.play, PMF.pure_map]
  | succ n ih =>
    intro h v ps T hps hT
    have hadd : ∀ (h' : List (NBytes × NBytes)) (p : SProg R) T, (∀ x ∈ h, x ∈ h') → p.Calm → p.Named h' →
        GoodRecs P kek right h' T → (A.tree pairs S n h' v (ps ++ [p])).play (boxReal P kek right) T =
        (A.run (challenges P pairs S kek right) n h' v (ps.map (·.expand P kek right) ++ [p.expand P kek right])).map A.guess := by
      intro h' p T hh hp hn hT
      rw [ih _ _ _ _ (fun q hq => (List.mem_append.mp hq).elim (fun hq => ⟨(hps q hq).1, (hps q hq).2.mono hh⟩)
        fun h => List.mem_singleton.mp h ▸ ⟨hp, hn⟩) hT]
      simp
    cases hm : A.move n v with
    | stop => simp only [Spy.tree, Spy.run, hm, OAdv.play, PMF.pure_map]
    | begin x =>
      have hh : ∀ y ∈ h, y ∈ pairs x ++ h := fun y hy => List.mem_append.mpr (.inr hy)
      simp only [Spy.tree, Spy.run, hm, PMF.map_bind]
      exact play_tree L kek right _
        (fun p => PMF.map A.guess (A.run (challenges P pairs S kek right) n (pairs x ++ h) v (_ ++ [p])))
        (fun p T hc hn hT => hadd _ p T hh hc hn hT) _ T
        ((hS x).mono fun y hy => List.mem_append.mpr (.inl hy)) (hT.mono hh)
    | other p =>
      simp only [Spy.tree, Spy.run, hm, PMF.map_bind]
      conv_rhs => rw [← SProg.expand_lift P kek right p]
      exact play_tree L kek right _
        (fun p => PMF.map A.guess (A.run (challenges P pairs S kek right) n h v (_ ++ [p])))
        (fun p T hc hn hT => hadd _ p T (fun _ h => h) hc hn hT) _ T (SProg.named_lift _ _) hT
    | step j =>
      simp only [Spy.tree, Spy.run, hm, List.getElem?_map]
      cases hj : ps[j]? with
      | none => exact ih h v ps T hps hT
      | some p =>
        have hp := hps p (List.mem_of_getElem? hj)
        have hx := next_expand P kek right hp.1 hp.2
        simp only [Option.map_some]
        cases hn : p.next h with
        | inl o =>
          rw [hn] at hx
          obtain ⟨o', h1, h2⟩ := hx
          simp only [h1, h2]
          exact ih h _ ps T hps hT
        | inr x =>
          obtain ⟨e, k⟩ := x
          rw [hn] at hx
          simp only [hx.1, PMF.map_bind]
          refine play_tree L kek right _ (fun p => PMF.map A.guess
            (A.run (challenges P pairs S kek right) n h _ ((ps.map (·.expand P kek right)).set j p))) ?_ _ T (hx.2 _) hT
          intro q T hq hqn hT
          rw [ih _ _ _ _ (fun x hx => (List.mem_or_eq_of_mem_set hx).elim (hps x) fun h => h ▸ ⟨hq, hqn⟩) hT, List.map_set]

/-! ## The attack on the key wrapping -/

/-- As `boxReal`, but with the wrappings of other keys. -/
noncomputable def boxMid (P : Prims) (kek : BytesN 32) (right : Bool) :
    (q : BoxAsk) → List (BoxRec (BytesN 32)) → PMF (q.Ans × List (BoxRec (BytesN 32)))
  | .seal q, T => (unif 32).bind fun key => (unif 32).bind fun other => (unif 12).bind fun nonce =>
      let w := kwpBox P kek.1 other.1
      let c := gcmBox P key.1 nonce.1 q.aad (boxText (side right q.left q.right))
      PMF.pure ((w, c), ⟨q.aad, w, c, q.left, q.right, key⟩ :: T)
  | .open aad w c, T => PMF.pure (match issued T aad w c with
      | some x => .ok (.inr x)
      | none => match (handed T).lookup w with
        | none => .error .kwp
        | some key => (openWith P key.1 aad c).map Sum.inl, T)

/-- What is answered with an unwrapped key. -/
def openedWith (P : Prims) (aad c : Bytes) : Except Err Bytes → Except Err (NBytes ⊕ NBytes × NBytes)
  | .error e => .error e
  | .ok key => (openWith P key aad c).map Sum.inl

/-- The attack on the key wrapping: the oracle's keys seal the boxes, and the oracle's wrappings are handed out with them; for
boxes of others the oracle has to unwrap. -/
def toWrap (P : Prims) (right : Bool) : BoxAdv → List (BoxRec (BytesN 32)) → OAdv WrapAsk WrapAsk.Ans
  | .done b, _ => .done b
  | .toss n k, T => .toss n fun x => toWrap P right (k x) T
  | .ask (.seal q) k, T => .ask .fresh fun (r : BytesN 32 × Bytes) => .toss 12 fun nonce =>
      let c := gcmBox P r.1.1 nonce.1 q.aad (boxText (side right q.left q.right))
      toWrap P right (k (r.2, c)) (⟨q.aad, r.2, c, q.left, q.right, r.1⟩ :: T)
  | .ask (.open aad w c) k, T => match issued T aad w c with
    | some x => toWrap P right (k (.ok (.inr x))) T
    | none => .ask (.unwrap w) fun r => toWrap P right (k (openedWith P aad c r)) T

theorem wrapped_eq {P : Prims} (L : P.Laws) (kek key : BytesN 32) : wrapped P kek key = kwpBox P kek.1 key.1 := by
  simp only [wrapped, kwpWrap_box L kek.1 key.1 key.2]

theorem play_toWrap {P : Prims} (L : P.Laws) (kek : BytesN 32) (right : Bool) (t : BoxAdv) :
    ∀ T, (toWrap P right t T).play (wrapReal P kek) () = t.play (boxReal P kek right) T := by
  induction t with
  | done b => intro T; rfl
  | toss n k ih => intro T; simp only [toWrap, OAdv.play, ih]
  | ask q k ih =>
    intro T
    cases q with
    | «seal» q =>
      simp only [toWrap, OAdv.play, wrapReal, boxReal, PMF.bind_bind, PMF.pure_bind, wrapped_eq L]
      congr 1; funext key; congr 1; funext nonce
      exact ih _ _
    | «open» aad w c =>
      simp only [toWrap, OAdv.play, boxReal, PMF.pure_bind]
      cases issued T aad w c with
      | some x => exact ih _ T
      | none =>
        simp only [OAdv.play, wrapReal, PMF.pure_bind, boxOpen]
        cases kwpUnwrap P kek.1 w <;> exact ih _ T

theorem play_toWrap_ideal {P : Prims} (L : P.Laws) (kek : BytesN 32) (right : Bool) (t : BoxAdv) :
    ∀ T, (toWrap P right t T).play (wrapIdeal P kek) (handed T) = t.play (boxMid P kek right) T := by
  induction t with
  | done b => intro T; rfl
  | toss n k ih => intro T; simp only [toWrap, OAdv.play, ih]
  | ask q k ih =>
    intro T
    cases q with
    | «seal» q =>
      simp only [toWrap, OAdv.play, wrapIdeal, boxMid, PMF.bind_bind, PMF.pure_bind, wrapped_eq L]
      congr 1; funext key; congr 1; funext other; congr 1; funext nonce
      exact ih _ (_ :: T)
    | «open» aad w c =>
      simp only [toWrap, OAdv.play, boxMid, PMF.pure_bind]
      cases issued T aad w c with
      | some x => exact ih _ T
      | none =>
        simp only [OAdv.play, wrapIdeal, PMF.pure_bind]
        cases (handed T).lookup w <;> exact ih _ T

/-! ## The attack on AES-GCM -/

/-- What is answered for what AES-GCM decrypts. -/
def decryptedAs (P : Prims) (c : Bytes) : Option Bytes → Except Err NBytes
  | none => .error .aead
  | some m => unboxText P ((copyAt c 0 m).take (c.length - overhead))

theorem openWith_eq (P : Prims) (key : BytesN 32) (aad c : Bytes) : openWith P key.1 aad c =
    if c.length < overhead then .error .aead
    else decryptedAs P c (P.gcmOpen key.1 (c.drop (c.length - nonceLength)) aad (c.take (c.length - nonceLength))) := by
  rw [openWith, gcmDecrypt, if_neg (by simp [key.2, keyLength])]
  by_cases hl : c.length < overhead
  · rw [if_pos hl, if_pos hl]
  · rw [if_neg hl, if_neg hl]
    simp only
    cases P.gcmOpen key.1 (c.drop (c.length - nonceLength)) aad (c.take (c.length - nonceLength)) <;> rfl

/-- The attack on AES-GCM: the oracle seals the boxes, and wrappings of random keys are handed out with them; for boxes of
others the oracle has to decrypt if the wrapped key was handed out. -/
def toSeal (P : Prims) (kek : BytesN 32) : BoxAdv → List (BoxRec Nat) → OAdv SealAsk SealAsk.Ans
  | .done b, _ => .done b
  | .toss n k, T => .toss n fun x => toSeal P kek (k x) T
  | .ask (.seal q) k, T => .ask (.seal q.sealQuery) fun (r : BytesN 12 × Bytes) => .toss 32 fun other =>
      let w := wrapped P kek other
      toSeal P kek (k (w, r.2 ++ r.1.1)) (⟨q.aad, w, r.2 ++ r.1.1, q.left, q.right, T.length⟩ :: T)
  | .ask (.open aad w c) k, T => match issued T aad w c with
    | some x => toSeal P kek (k (.ok (.inr x))) T
    | none => match (handed T).lookup w with
      | none => toSeal P kek (k (.error .kwp)) T
      | some j => if c.length < overhead then toSeal P kek (k (.error .aead)) T
        else .ask (.open j (c.drop (c.length - nonceLength)) aad (c.take (c.length - nonceLength))) fun r =>
          toSeal P kek (k ((decryptedAs P c r).map Sum.inl)) T

/-- The same boxes, as they are remembered with their keys, by the attack, and by the oracle. -/
inductive SameBoxes : List (BoxRec (BytesN 32)) → List (BoxRec Nat) → List SealRec → Prop
  | nil : SameBoxes [] [] []
  | cons {T T' s} (aad w ct : Bytes) (nonce : BytesN 12) (l r : NBytes) (key : BytesN 32) : SameBoxes T T' s →
      SameBoxes (⟨aad, w, ct ++ nonce.1, l, r, key⟩ :: T) (⟨aad, w, ct ++ nonce.1, l, r, T'.length⟩ :: T')
        (s ++ [⟨key, nonce.1, aad, ct⟩])

namespace SameBoxes
variable {T : List (BoxRec (BytesN 32))} {T' : List (BoxRec Nat)} {s : List SealRec}

theorem length (h : SameBoxes T T' s) : T'.length = s.length := by
  induction h with
  | nil => rfl
  | cons _ _ _ _ _ _ _ _ ih => simp [ih]

theorem issued_eq (h : SameBoxes T T' s) (aad w c : Bytes) : issued T aad w c = issued T' aad w c := by
  induction h with
  | nil => rfl
  | cons a w' ct nonce l r key _ ih =>
    simp only [issued, List.find?_cons] at ih ⊢
    cases decide (a = aad ∧ w' = w ∧ ct ++ nonce.1 = c) with
    | true => rfl
    | false => exact ih

theorem lookup (h : SameBoxes T T' s) (w : Bytes) :
    ((handed T).lookup w = none ∧ (handed T').lookup w = none) ∨
    ∃ e j, (handed T).lookup w = some e.key ∧ (handed T').lookup w = some j ∧ s[j]? = some e ∧ e.nonce.length = 12 ∧
      issued T e.aad w (e.ct ++ e.nonce) ≠ none := by
  induction h with
  | nil => exact .inl ⟨rfl, rfl⟩
  | @cons T T' s a w' ct nonce l r key hs ih =>
    simp only [handed, List.map_cons, List.lookup_cons] at ih ⊢
    by_cases hw : w = w'
    · subst hw
      refine .inr ⟨⟨key, nonce.1, a, ct⟩, T'.length, ?_, ?_, ?_, nonce.2, ?_⟩
      · simp
      · simp
      · rw [hs.length]; simp
      · simp [issued]
    · have hb : (w == w') = false := by simpa using hw
      simp only [hb]
      rcases ih with ih | ⟨e, j, h1, h2, h3, h4, h5⟩
      · exact .inl ih
      · refine .inr ⟨e, j, h1, h2, ?_, h4, ?_⟩
        · rw [List.getElem?_append_left (List.getElem?_eq_some_iff.mp h3).1, h3]
        · intro hn
          refine h5 ?_
          simp only [issued, List.find?_cons] at hn ⊢
          split at hn
          · exact nomatch hn
          · exact hn

end SameBoxes

theorem play_toSeal {P : Prims} (L : P.Laws) (kek : BytesN 32) (right : Bool) (t : BoxAdv) :
    ∀ T T' s, SameBoxes T T' s → (toSeal P kek t T').play (sealOracle P right) s = t.play (boxMid P kek right) T := by
  induction t with
  | done b => intro T T' s h; rfl
  | toss n k ih => intro T T' s h; simp only [toSeal, OAdv.play]; congr 1; funext x; exact ih x T T' s h
  | ask q k ih =>
    intro T T' s h
    cases q with
    | «seal» q =>
      simp only [toSeal, OAdv.play, sealOracle, boxMid, PMF.bind_bind, PMF.pure_bind, wrapped_eq L]
      congr 1; funext key
      rw [PMF.bind_comm]
      congr 1; funext other; congr 1; funext nonce
      have : (if right then q.sealQuery.right else q.sealQuery.left) = boxText (side right q.left q.right) := by
        cases right <;> rfl
      rw [this]
      exact ih _ _ _ _ (h.cons q.aad _ _ nonce q.left q.right key)
    | «open» aad w c =>
      simp only [toSeal, OAdv.play, boxMid, PMF.pure_bind, h.issued_eq]
      cases hi : issued T' aad w c with
      | some x => exact ih _ _ _ _ h
      | none =>
        simp only
        rcases h.lookup w with ⟨h1, h2⟩ | ⟨e, j, h1, h2, h3, h4, h5⟩
        · rw [h1, h2]
          exact ih _ _ _ _ h
        · rw [h1, h2]
          simp only [openWith_eq]
          split
          · exact ih _ _ _ _ h
          · next hl =>
            simp only [OAdv.play, sealOracle, PMF.pure_bind, h3]
            refine Eq.trans (congrArg (fun r : Option Bytes => OAdv.play (sealOracle P right)
              (toSeal P kek (k ((decryptedAs P c r).map Sum.inl)) T') s) (if_neg ?_)) (ih _ _ _ _ h)
            rintro ⟨e1, e2, e3⟩
            refine h5 ?_
            rw [e1, e2, e3, List.take_append_drop, h.issued_eq]
            exact hi

/-! ## The bound -/

/-- The attack on the key wrapping that an adversary amounts to. -/
def wrapAttack {X R : Type} (P : Prims) (pairs : X → List (NBytes × NBytes)) (S : X → SProg R) (A : Spy X (Reply R)) (n : Nat)
    (right : Bool) : OAdv WrapAsk WrapAsk.Ans := toWrap P right (A.tree pairs S n [] [] []) []

/-- The attack on AES-GCM that an adversary amounts to. -/
def sealAttack {X R : Type} (P : Prims) (pairs : X → List (NBytes × NBytes)) (S : X → SProg R) (A : Spy X (Reply R)) (n : Nat) :
    OAdv SealAsk SealAsk.Ans := .toss 32 fun kek => toSeal P kek (A.tree pairs S n [] [] []) []

/-- The game is the attack on wrapped keys. -/
theorem spy_real {X R : Type} {P : Prims} (L : P.Laws) {pairs : X → List (NBytes × NBytes)} {S : X → SProg R}
    (hS : ∀ x, (S x).Named (pairs x)) (A : Spy X (Reply R)) (n : Nat) (right : Bool) :
    spyGame (fun kek => challenges P pairs S kek right) A n =
      (unif 32).bind fun kek => (wrapAttack P pairs S A n right).play (wrapReal P kek) () := by
  simp only [spyGame, wrapAttack, play_toWrap L]
  congr 1; funext kek
  exact (play_spy L A hS kek right n [] [] [] [] (by simp) (fun e he => by simp at he)).symm

/-- With wrappings of other keys it is the attack on AES-GCM. -/
theorem spy_ideal {X R : Type} {P : Prims} (L : P.Laws) (pairs : X → List (NBytes × NBytes)) (S : X → SProg R)
    (A : Spy X (Reply R)) (n : Nat) (right : Bool) :
    (sealAttack P pairs S A n).play (sealOracle P right) [] =
      (unif 32).bind fun kek => (wrapAttack P pairs S A n right).play (wrapIdeal P kek) [] := by
  simp only [sealAttack, wrapAttack, OAdv.play, play_toSeal L _ _ _ [] [] [] .nil]
  congr 1; funext kek
  exact (play_toWrap_ideal L kek right _ []).symm

theorem spy_gap {X R : Type} {P : Prims} (L : P.Laws) {pairs : X → List (NBytes × NBytes)} {S : X → SProg R}
    (hS : ∀ x, (S x).Named (pairs x)) (A : Spy X (Reply R)) (n : Nat) :
    gap (spyGame (fun kek => challenges P pairs S kek false) A n) (spyGame (fun kek => challenges P pairs S kek true) A n) ≤
      wrapGap P (wrapAttack P pairs S A n false) + sealGap P (sealAttack P pairs S A n) +
        wrapGap P (wrapAttack P pairs S A n true) := by
  simp only [wrapGap, sealGap, ← spy_real L hS, ← spy_ideal L, gap]
  generalize chance _ = a
  generalize chance _ = b
  generalize chance _ = c
  generalize chance _ = e
  have := abs_sub_le a c b
  have := abs_sub_le c e b
  rw [abs_sub_comm e b] at this
  linarith

/-! ## How often the attacks ask -/

theorem OAdv.Asks.mono {Q : Type} {R : Q → Type} {t : OAdv Q R} : ∀ {m n : Nat}, t.Asks m → m ≤ n → t.Asks n := by
  induction t with
  | done b => intros; trivial
  | toss l k ih => intro m n h hmn x; exact ih x (h x) hmn
  | ask q k ih =>
    intro m n h hmn
    cases m with
    | zero => exact h.elim
    | succ m =>
      obtain ⟨n, rfl⟩ : ∃ n', n = n' + 1 := ⟨n - 1, by omega⟩
      exact fun r => ih r (h r) (by omega)

theorem asks_toWrap (P : Prims) (right : Bool) (t : BoxAdv) : ∀ {n : Nat} T, t.Asks n → (toWrap P right t T).Asks n := by
  induction t with
  | done b => intros; trivial
  | toss l k ih => intro n T h x; exact ih x T (h x)
  | ask q k ih =>
    intro n T h
    cases n with
    | zero => exact h.elim
    | succ n =>
      cases q with
      | «seal» q => exact fun r nonce => ih _ _ (h _)
      | «open» aad w c =>
        simp only [toWrap]
        split
        · exact (ih _ _ (h _)).mono (by omega)
        · exact fun r => ih _ _ (h _)

theorem asks_toSeal (P : Prims) (kek : BytesN 32) (t : BoxAdv) : ∀ {n : Nat} T, t.Asks n → (toSeal P kek t T).Asks n := by
  induction t with
  | done b => intros; trivial
  | toss l k ih => intro n T h x; exact ih x T (h x)
  | ask q k ih =>
    intro n T h
    cases n with
    | zero => exact h.elim
    | succ n =>
      have ih' : ∀ r T, (toSeal P kek (k r) T).Asks (n + 1) := fun r T => (ih _ _ (h _)).mono (by omega)
      cases q with
      | «seal» q => exact fun r other => ih _ _ (h _)
      | «open» aad w c =>
        simp only [toSeal]
        split
        · exact ih' _ _
        · split
          · exact ih' _ _
          · split
            · exact ih' _ _
            · exact fun r => ih _ _ (h _)

theorem SProg.asks_tree {R : Type} {c : Nat} {K : SProg R → BoxAdv}
    (hK : ∀ (p : SProg R) (m : Nat), p.Boxes m → (K p).Asks (c + m)) (p : SProg R) :
    ∀ {m : Nat}, p.Boxes m → (p.tree K).Asks (c + m) := by
  induction p with
  | op e k ih =>
    intro m h
    cases e with
    | rand n => exact fun b => ih _ (h _)
    | _ => exact hK (.op _ k) m h
  | box q k ih =>
    intro m h
    cases m with
    | zero => exact h.elim
    | succ m => exact fun r => ih r (h r)
  | unbox aad w ct ad =>
    intro m h
    cases m with
    | zero => exact h.elim
    | succ m =>
      intro r
      refine hK _ m ?_
      cases r with
      | error e => cases m <;> trivial
      | ok x => cases x <;> cases m <;> trivial
  | ret a => exact fun h => hK (.ret a) _ h
  | err e => exact fun h => hK (.err e) _ h
  | panic => exact fun h => hK .panic _ h
  | diverge => exact fun h => hK .diverge _ h
  | secret l r ad => exact fun h => hK (.secret l r ad) _ h

theorem sum_set_add : ∀ (l : List Nat) (j a b : Nat), l[j]? = some a → (l.set j b).sum + a = l.sum + b
  | [], _, _, _, h => nomatch h
  | x :: l, 0, a, b, h => by
    obtain rfl : x = a := Option.some.inj h
    simp only [List.set_cons_zero, List.sum_cons]; omega
  | x :: l, j + 1, a, b, h => by
    have := sum_set_add l j a b h
    simp only [List.set_cons_succ, List.sum_cons]; omega

/-- Every challenge seals or opens at most one box, so `n` moves ask at most `n` times. -/
theorem asks_spy {X R : Type} (A : Spy X (Reply R)) {pairs : X → List (NBytes × NBytes)} {S : X → SProg R} (hS : ∀ x, (S x).Boxes 1) :
    ∀ (n : Nat) (h : List (NBytes × NBytes)) (v : List (Sight (Reply R))) (ps : List (SProg R × Nat)), (∀ p ∈ ps, p.1.Boxes p.2) →
      (A.tree pairs S n h v (ps.map Prod.fst)).Asks ((ps.map Prod.snd).sum + n) := by
  intro n
  induction n with
  | zero => intros; trivial
  | succ n ih =>
    intro h v ps hps
    have hadd : ∀ h (p : SProg R) (m : Nat), p.Boxes m →
        (A.tree pairs S n h v (ps.map Prod.fst ++ [p])).Asks ((ps.map Prod.snd).sum + n + m) := by
      intro h p m hp
      have := ih h v (ps ++ [(p, m)]) fun q hq => (List.mem_append.mp hq).elim (hps q) fun h => List.mem_singleton.mp h ▸ hp
      simp only [List.map_append, List.map_cons, List.map_nil, List.sum_append, List.sum_cons, List.sum_nil] at this
      exact this.mono (by omega)
    simp only [Spy.tree]
    cases A.move n v with
    | stop => trivial
    | begin x => exact SProg.asks_tree (hadd _) _ (hS x)
    | other p => exact (SProg.asks_tree (hadd _) _ (SProg.boxes_lift 0 _)).mono (by omega)
    | step j =>
      simp only [List.getElem?_map]
      cases hj : ps[j]? with
      | none => exact (ih h v ps hps).mono (by omega)
      | some p =>
        have hp := hps p (List.mem_of_getElem? hj)
        simp only [Option.map_some]
        cases hn : p.1.next h with
        | inl o => exact (ih _ _ ps hps).mono (by omega)
        | inr x =>
          obtain ⟨e, k⟩ := x
          have hk : ∀ r, (k r).Boxes p.2 := by
            cases hq : p.1 with
            | op e' k' =>
              rw [hq] at hn hp
              cases hn
              exact hp
            | _ => rw [hq] at hn; cases hn
          have hs := sum_set_add (ps.map Prod.snd) j p.2
          have := SProg.asks_tree (c := (ps.map Prod.snd).sum - p.2 + n)
            (K := fun q => A.tree pairs S n h (v ++ [.request j ⟨e, A.answer v e⟩]) ((ps.map Prod.fst).set j q)) (by
              intro q m hq
              have := ih h (v ++ [.request j ⟨e, A.answer v e⟩]) (ps.set j (q, m))
                fun x hx => (List.mem_or_eq_of_mem_set hx).elim (hps x) fun h => h ▸ hq
              rw [List.map_set, List.map_set] at this
              have hs := hs m (by simp [hj])
              exact this.mono (by simp only; omega)) (k (A.answer v e)) (hk _)
          have hs := hs 0 (by simp [hj])
          exact this.mono (by omega)

theorem asks_wrapAttack {X R : Type} (P : Prims) {pairs : X → List (NBytes × NBytes)} {S : X → SProg R}
    (hS : ∀ x, (S x).Boxes 1) (A : Spy X (Reply R)) (n : Nat) (right : Bool) : (wrapAttack P pairs S A n right).Asks n :=
  asks_toWrap P right _ _ ((asks_spy A hS n [] [] [] (by simp)).mono (by simp))

theorem asks_sealAttack {X R : Type} (P : Prims) {pairs : X → List (NBytes × NBytes)} {S : X → SProg R}
    (hS : ∀ x, (S x).Boxes 1) (A : Spy X (Reply R)) (n : Nat) : (sealAttack P pairs S A n).Asks n :=
  fun kek => asks_toSeal P kek _ _ ((asks_spy A hS n [] [] [] (by simp)).mono (by simp))

end D1
