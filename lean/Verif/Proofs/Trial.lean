import Verif.Spec.Trial
import Verif.Proofs.Spy
/-!
# Reducing the game about results to the games about key wrapping and forgeries

As in `Proofs/Spy.lean`, but what is sealed is any JSON value, and programs go on after opening.
-/
namespace D1
open Prog

/-! ## Programs in which sealing and opening is left open -/

inductive IProg (R : Type) where
  | ret (a : R)
  | err (e : Err)
  | panic
  | diverge
  | op (e : Eff) (k : e.Resp → IProg R)
  | box (m : J) (aad : Bytes) (k : Bytes × Bytes → IProg R)
  | unbox (aad w c : Bytes) (k : Except Err (Option J) → IProg R)

/-- Opening with the key. -/
def unboxedWith (P : Prims) (key aad c : Bytes) : Except Err (Option J) :=
  match gcmDecrypt P c aad key with
  | .error e => .error e
  | .ok m => .ok (P.unmarshal m)

/-- Opening with the wrapping key. -/
def unboxed (P : Prims) (kek aad w c : Bytes) : Except Err (Option J) :=
  match kwpUnwrap P kek w with
  | .error e => .error e
  | .ok key => unboxedWith P key aad c

/-- Reading what was opened. -/
def readAs {α : Type} (dec : J → Option α) : Except Err (Option J) → Except Err α
  | .error e => .error e
  | .ok j => match j.bind dec with
    | none => .error .json
    | some v => .ok v

theorem decrypt_unboxed {α : Type} (P : Prims) (c : Cryptor) (dec : J → Option α) (a : J) (w ct : Bytes) :
    c.decrypt P dec a w ct = readAs dec (unboxed P c.kwp a.render w ct) := by
  rw [Cryptor.decrypt, unboxed]
  cases kwpUnwrap P c.kwp w with
  | error e => rfl
  | ok key =>
    simp only [unboxedWith]
    cases gcmDecrypt P ct a.render key with
    | error e => rfl
    | ok m =>
      simp only [readAs]
      cases (P.unmarshal m).bind dec <;> rfl

namespace IProg
variable {R β : Type}

/-- Go on after a program. -/
def after : Prog β → (β → IProg R) → IProg R
  | .ret a, k => k a
  | .err e, _ => err e
  | .panic, _ => panic
  | .diverge, _ => diverge
  | .op e c, k => op e fun r => after (c r) k

def lift (p : Prog R) : IProg R := after p ret

/-- The program with the boxes sealed and opened. -/
def expand (P : Prims) (kek : BytesN 32) : IProg R → Prog R
  | ret a => .ret a
  | err e => .err e
  | panic => .panic
  | diverge => .diverge
  | op e k => .op e fun r => (k r).expand P kek
  | box m aad k => (randBytes 32).bind fun key => (randBytes 12).bind fun nonce =>
      (k (kwpBox P kek.1 key.1, gcmBox P key.1 nonce.1 aad m.render)).expand P kek
  | unbox aad w c k => (k (unboxed P kek.1 aad w c)).expand P kek

theorem expand_after (P : Prims) (kek : BytesN 32) (p : Prog β) (k : β → IProg R) :
    (after p k).expand P kek = p.bind fun a => (k a).expand P kek := by
  induction p with
  | op e c ih => simp only [after, expand, Prog.bind]; congr 1; funext r; exact ih r
  | _ => rfl

theorem expand_lift (P : Prims) (kek : BytesN 32) (p : Prog R) : (lift p).expand P kek = p := by
  rw [lift, expand_after]
  simp only [expand]
  exact Prog.bind_ret p

/-- Go on with what was read. -/
def read {α : Type} (dec : J → Option α) (aad w c : Bytes) (k : α → IProg R) : IProg R :=
  unbox aad w c fun r => match readAs dec r with
    | .error e => err e
    | .ok a => k a

theorem expand_read {α : Type} (P : Prims) (kek : BytesN 32) (dec : J → Option α) (a : J) (w c : Bytes) (k : α → IProg R) :
    (read dec a.render w c k).expand P kek =
      (Prog.ofExcept ((⟨kek.1⟩ : Cryptor).decrypt P dec a w c)).bind fun x => (k x).expand P kek := by
  simp only [read, expand, decrypt_unboxed]
  cases readAs dec (unboxed P kek.1 a.render w c) <;> rfl

end IProg

/-- Questions about boxes. -/
inductive IAsk where
  | seal (m : J) (aad : Bytes)
  | open (aad w c : Bytes)

def IAsk.Ans : IAsk → Type
  | .seal _ _ => Bytes × Bytes
  | .open _ _ _ => Except Err (Option J)

abbrev IAdv : Type := OAdv IAsk IAsk.Ans

namespace IProg
variable {R : Type}

def tree : IProg R → (IProg R → IAdv) → IAdv
  | op (.rand n) k, K => .toss n fun b => (k (some b : Option (BytesN n))).tree K
  | box m aad k, K => .ask (.seal m aad) fun r => (k r).tree K
  | unbox aad w c k, K => .ask (.open aad w c) fun r => (k r).tree K
  | p, K => K p

def next : IProg R → Outcome R ⊕ ((e : Eff) × (e.Resp → IProg R))
  | ret a => .inl (.ok a)
  | err e => .inl (.err e)
  | panic => .inl .panic
  | diverge => .inl .diverge
  | op e k => .inr ⟨e, k⟩
  | box _ _ _ => .inl .diverge
  | unbox _ _ _ _ => .inl .diverge

/-- A program with nothing left to draw, seal or open. -/
def Calm : IProg R → Prop
  | op (.rand _) _ => False
  | box _ _ _ => False
  | unbox _ _ _ _ => False
  | _ => True

end IProg

open Classical in
noncomputable def Spy.trialTree {X R F : Type} (A : Spy X R) (S : X → IProg R) (t : Terms X R F) :
    Nat → List (Option X) → List (Sight R) → List (IProg R) → IAdv
  | 0, _, _, _ => .done false
  | n + 1, cs, v, ps =>
    match A.move n v with
    | .stop => .done false
    | .begin x => A.trialTree S t n (cs ++ [some x]) v (ps ++ [S x])
    | .other p => A.trialTree S t n (cs ++ [none]) v (ps ++ [IProg.lift p])
    | .step j =>
      match ps[j]? with
      | none => A.trialTree S t n cs v ps
      | some p => p.tree fun q =>
        match q.next with
        | .inl o => if ∃ r, o = .ok r ∧ t.Unfounded cs v j (.inl r) then .done true
          else A.trialTree S t n cs (v ++ [.result j o]) (ps.set j q)
        | .inr ⟨e, k⟩ => if t.Unfounded cs v j (.inr e) then .done true
          else A.trialTree S t n cs (v ++ [.request j ⟨e, A.answer v e⟩]) (ps.set j (k (A.answer v e)))

/-! ## The game is a question to the oracle -/

/-- What is remembered of a box, with its key or something that stands for the key. -/
structure IRec (κ : Type) where
  aad : Bytes
  w : Bytes
  c : Bytes
  m : J
  key : κ

/-- What is read from a box that was made. -/
def madeOf {κ : Type} (T : List (IRec κ)) (aad w c : Bytes) : Option J :=
  (T.find? fun e => e.aad = aad ∧ e.w = w ∧ e.c = c).map fun e => e.m.san

/-- The wrapped keys that were handed out, with what they stand for. -/
def givenOut {κ : Type} (T : List (IRec κ)) : List (Bytes × κ) := T.map fun e => (e.w, e.key)

theorem madeOf_spec {κ : Type} {T : List (IRec κ)} {aad w c : Bytes} {j : J} (h : madeOf T aad w c = some j) :
    ∃ e ∈ T, e.aad = aad ∧ e.w = w ∧ e.c = c ∧ j = e.m.san := by
  obtain ⟨e, he, rfl⟩ := Option.map_eq_some_iff.mp h
  have := List.find?_some he
  simp only [decide_eq_true_eq] at this
  exact ⟨e, List.mem_of_find?_eq_some he, this.1, this.2.1, this.2.2, rfl⟩

noncomputable def boxTrue (P : Prims) (kek : BytesN 32) :
    (q : IAsk) → List (IRec (BytesN 32)) → PMF (q.Ans × List (IRec (BytesN 32)))
  | .seal m aad, T => (unif 32).bind fun key => (unif 12).bind fun nonce =>
      let w := kwpBox P kek.1 key.1
      let c := gcmBox P key.1 nonce.1 aad m.render
      PMF.pure ((w, c), ⟨aad, w, c, m, key⟩ :: T)
  | .open aad w c, T => PMF.pure (match madeOf T aad w c with
      | some j => .ok (some j)
      | none => unboxed P kek.1 aad w c, T)

/-- The boxes can be opened. -/
def TrueRecs (P : Prims) (kek : BytesN 32) (T : List (IRec (BytesN 32))) : Prop :=
  ∀ e ∈ T, unboxed P kek.1 e.aad e.w e.c = .ok (some e.m.san)

theorem unboxed_box {P : Prims} (L : P.Laws) (kek key : BytesN 32) (nonce : BytesN 12) (aad : Bytes) (m : J) :
    unboxed P kek.1 aad (kwpBox P kek.1 key.1) (gcmBox P key.1 nonce.1 aad m.render) = .ok (some m.san) := by
  rw [unboxed, kwpUnwrap_box L _ _ key.2]
  simp only [unboxedWith, gcmDecrypt_box L key.1 aad m.render nonce key.2, L.unmarshal_render]

theorem play_itree {R : Type} {P : Prims} (L : P.Laws) (kek : BytesN 32) (K : IProg R → IAdv) (F : Prog R → PMF Bool)
    (hK : ∀ (p : IProg R) T, p.Calm → TrueRecs P kek T → (K p).play (boxTrue P kek) T = F (p.expand P kek)) (p : IProg R) :
    ∀ T, TrueRecs P kek T → (p.tree K).play (boxTrue P kek) T = (settle (p.expand P kek)).bind F := by
  induction p with
  | op e k ih =>
    intro T hT
    cases e with
    | rand n =>
      simp only [IProg.tree, OAdv.play, IProg.expand, settle, PMF.bind_bind]
      congr 1; funext b; exact ih _ T hT
    | _ => exact (hK (.op _ k) T trivial hT).trans (by simp only [IProg.expand, settle, PMF.pure_bind])
  | box m aad k ih =>
    intro T hT
    simp only [IProg.tree, OAdv.play, IProg.expand, boxTrue, randBytes, Prog.bind, settle, PMF.bind_bind, PMF.pure_bind]
    congr 1; funext key; congr 1; funext nonce
    refine ih _ _ fun e he => ?_
    rcases List.mem_cons.mp he with rfl | he
    · exact unboxed_box L kek key nonce aad m
    · exact hT e he
  | unbox aad w c k ih =>
    intro T hT
    simp only [IProg.tree, OAdv.play, IProg.expand, boxTrue, PMF.pure_bind]
    cases hi : madeOf T aad w c with
    | some j =>
      obtain ⟨e, he, rfl, rfl, rfl, rfl⟩ := madeOf_spec hi
      rw [hT e he]
      exact ih _ T hT
    | none => exact ih _ T hT
  | ret a => intro T hT; exact (hK (.ret a) T trivial hT).trans (by simp only [IProg.expand, settle, PMF.pure_bind])
  | err e => intro T hT; exact (hK (.err e) T trivial hT).trans (by simp only [IProg.expand, settle, PMF.pure_bind])
  | panic => intro T hT; exact (hK .panic T trivial hT).trans (by simp only [IProg.expand, settle, PMF.pure_bind])
  | diverge => intro T hT; exact (hK .diverge T trivial hT).trans (by simp only [IProg.expand, settle, PMF.pure_bind])

theorem inext_expand {R : Type} (P : Prims) (kek : BytesN 32) {p : IProg R} (h : p.Calm) :
    nextStep (p.expand P kek) = match p.next with
      | .inl o => .inl o
      | .inr ⟨e, k⟩ => .inr ⟨e, fun r => (k r).expand P kek⟩ := by
  cases p with
  | box m aad k => exact h.elim
  | unbox aad w c k => exact h.elim
  | _ => rfl

theorem play_trial {X R F : Type} {P : Prims} (L : P.Laws) (A : Spy X R) (S : X → IProg R) (t : Terms X R F) (kek : BytesN 32) :
    ∀ (n : Nat) (cs : List (Option X)) (v : List (Sight R)) (ps : List (IProg R)) (T : List (IRec (BytesN 32))), TrueRecs P kek T →
      (A.trialTree S t n cs v ps).play (boxTrue P kek) T =
        A.trial (fun x => (S x).expand P kek) t n cs v (ps.map (·.expand P kek)) := by
  intro n
  induction n with
  | zero => intro cs v ps T _; rfl
  | succ n ih =>
    intro cs v ps T hT
    cases hm : A.move n v with
    | stop => simp only [Spy.trialTree, Spy.trial, hm, OAdv.play]
    | begin x =>
      simp only [Spy.trialTree, Spy.trial, hm]
      rw [ih _ _ _ _ hT, List.map_append, List.map_singleton]
    | other p =>
      simp only [Spy.trialTree, Spy.trial, hm]
      rw [ih _ _ _ _ hT, List.map_append, List.map_singleton, IProg.expand_lift]
    | step j =>
      simp only [Spy.trialTree, Spy.trial, hm, List.getElem?_map]
      cases hj : ps[j]? with
      | none => exact ih _ v ps T hT
      | some p =>
        simp only [Option.map_some]
        refine play_itree L kek _ _ (fun q T hq hT => ?_) p T hT
        rw [inext_expand P kek hq]
        cases hn : q.next with
        | inl o =>
          simp only
          split
          · rfl
          · rw [ih _ _ _ _ hT, List.map_set]
        | inr x =>
          obtain ⟨e, k⟩ := x
          simp only
          split
          · rfl
          · rw [ih _ _ _ _ hT, List.map_set]

/-! ## The attack on the key wrapping -/

/-- As `boxTrue`, but with the wrappings of other keys. -/
noncomputable def boxSwap (P : Prims) (kek : BytesN 32) :
    (q : IAsk) → List (IRec (BytesN 32)) → PMF (q.Ans × List (IRec (BytesN 32)))
  | .seal m aad, T => (unif 32).bind fun key => (unif 32).bind fun other => (unif 12).bind fun nonce =>
      let w := kwpBox P kek.1 other.1
      let c := gcmBox P key.1 nonce.1 aad m.render
      PMF.pure ((w, c), ⟨aad, w, c, m, key⟩ :: T)
  | .open aad w c, T => PMF.pure (match madeOf T aad w c with
      | some j => .ok (some j)
      | none => match (givenOut T).lookup w with
        | none => .error .kwp
        | some key => unboxedWith P key.1 aad c, T)

/-- What is answered with an unwrapped key. -/
def unboxedBy (P : Prims) (aad c : Bytes) : Except Err Bytes → Except Err (Option J)
  | .error e => .error e
  | .ok key => unboxedWith P key aad c

/-- The attack on the key wrapping. -/
def toUnwrap (P : Prims) : IAdv → List (IRec (BytesN 32)) → OAdv WrapAsk WrapAsk.Ans
  | .done b, _ => .done b
  | .toss n k, T => .toss n fun x => toUnwrap P (k x) T
  | .ask (.seal m aad) k, T => .ask .fresh fun (r : BytesN 32 × Bytes) => .toss 12 fun nonce =>
      let c := gcmBox P r.1.1 nonce.1 aad m.render
      toUnwrap P (k (r.2, c)) (⟨aad, r.2, c, m, r.1⟩ :: T)
  | .ask (.open aad w c) k, T => match madeOf T aad w c with
    | some j => toUnwrap P (k (.ok (some j))) T
    | none => .ask (.unwrap w) fun r => toUnwrap P (k (unboxedBy P aad c r)) T

theorem play_toUnwrap {P : Prims} (L : P.Laws) (kek : BytesN 32) (t : IAdv) :
    ∀ T, (toUnwrap P t T).play (wrapReal P kek) () = t.play (boxTrue P kek) T := by
  induction t with
  | done b => intro T; rfl
  | toss n k ih => intro T; simp only [toUnwrap, OAdv.play, ih]
  | ask q k ih =>
    intro T
    cases q with
    | «seal» m aad =>
      simp only [toUnwrap, OAdv.play, wrapReal, boxTrue, PMF.bind_bind, PMF.pure_bind, wrapped_eq L]
      congr 1; funext key; congr 1; funext nonce
      exact ih _ _
    | «open» aad w c =>
      simp only [toUnwrap, OAdv.play, boxTrue, PMF.pure_bind]
      cases madeOf T aad w c with
      | some x => exact ih _ T
      | none =>
        simp only [OAdv.play, wrapReal, PMF.pure_bind, unboxed]
        cases kwpUnwrap P kek.1 w <;> exact ih _ T

theorem play_toUnwrap_ideal {P : Prims} (L : P.Laws) (kek : BytesN 32) (t : IAdv) :
    ∀ T, (toUnwrap P t T).play (wrapIdeal P kek) (givenOut T) = t.play (boxSwap P kek) T := by
  induction t with
  | done b => intro T; rfl
  | toss n k ih => intro T; simp only [toUnwrap, OAdv.play, ih]
  | ask q k ih =>
    intro T
    cases q with
    | «seal» m aad =>
      simp only [toUnwrap, OAdv.play, wrapIdeal, boxSwap, PMF.bind_bind, PMF.pure_bind, wrapped_eq L]
      congr 1; funext key; congr 1; funext other; congr 1; funext nonce
      exact ih _ (_ :: T)
    | «open» aad w c =>
      simp only [toUnwrap, OAdv.play, boxSwap, PMF.pure_bind]
      cases madeOf T aad w c with
      | some x => exact ih _ T
      | none =>
        simp only [OAdv.play, wrapIdeal, PMF.pure_bind]
        cases (givenOut T).lookup w <;> exact ih _ T

/-! ## The forgery -/

/-- Nothing is opened but what was made. -/
noncomputable def boxShut (P : Prims) (kek : BytesN 32) :
    (q : IAsk) → List (IRec (BytesN 32)) → PMF (q.Ans × List (IRec (BytesN 32)))
  | .seal m aad, T => boxSwap P kek (.seal m aad) T
  | .open aad w c, T => PMF.pure (match madeOf T aad w c with
      | some j => .ok (some j)
      | none => match (givenOut T).lookup w with
        | none => .error .kwp
        | some _ => .error .aead, T)

/-- What is answered for what AES-GCM decrypts. -/
def parsedAs (P : Prims) (c : Bytes) : Option Bytes → Except Err (Option J)
  | none => .error .aead
  | some m => .ok (P.unmarshal ((copyAt c 0 m).take (c.length - overhead)))

theorem unboxedWith_eq (P : Prims) (key : BytesN 32) (aad c : Bytes) : unboxedWith P key.1 aad c =
    if c.length < overhead then .error .aead
    else parsedAs P c (P.gcmOpen key.1 (c.drop (c.length - nonceLength)) aad (c.take (c.length - nonceLength))) := by
  rw [unboxedWith, gcmDecrypt, if_neg (by simp [key.2, keyLength])]
  by_cases hl : c.length < overhead
  · rw [if_pos hl, if_pos hl]
  · rw [if_neg hl, if_neg hl]
    simp only
    cases P.gcmOpen key.1 (c.drop (c.length - nonceLength)) aad (c.take (c.length - nonceLength)) <;> rfl

/-- The forger: the oracle seals the boxes, and wrappings of random keys are handed out with them; for boxes of others the
oracle has to decrypt if the wrapped key was handed out. -/
def toForge (P : Prims) (kek : BytesN 32) : IAdv → List (IRec Nat) → OAdv ForgeAsk ForgeAsk.Ans
  | .done b, _ => .done b
  | .toss n k, T => .toss n fun x => toForge P kek (k x) T
  | .ask (.seal m aad) k, T => .ask (.seal m.render aad) fun (r : BytesN 12 × Bytes) => .toss 32 fun other =>
      let w := wrapped P kek other
      toForge P kek (k (w, r.2 ++ r.1.1)) (⟨aad, w, r.2 ++ r.1.1, m, T.length⟩ :: T)
  | .ask (.open aad w c) k, T => match madeOf T aad w c with
    | some j => toForge P kek (k (.ok (some j))) T
    | none => match (givenOut T).lookup w with
      | none => toForge P kek (k (.error .kwp)) T
      | some j => if c.length < overhead then toForge P kek (k (.error .aead)) T
        else .ask (.open j (c.drop (c.length - nonceLength)) aad (c.take (c.length - nonceLength))) fun r =>
          toForge P kek (k (parsedAs P c r)) T

/-- The same boxes, as they are remembered with their keys, by the forger, and by the oracle. -/
inductive SameRecs : List (IRec (BytesN 32)) → List (IRec Nat) → List SealRec → Prop
  | nil : SameRecs [] [] []
  | cons {T T' s} (aad w ct : Bytes) (nonce : BytesN 12) (m : J) (key : BytesN 32) : SameRecs T T' s →
      SameRecs (⟨aad, w, ct ++ nonce.1, m, key⟩ :: T) (⟨aad, w, ct ++ nonce.1, m, T'.length⟩ :: T')
        (s ++ [⟨key, nonce.1, aad, ct⟩])

namespace SameRecs
variable {T : List (IRec (BytesN 32))} {T' : List (IRec Nat)} {s : List SealRec}

theorem length (h : SameRecs T T' s) : T'.length = s.length := by
  induction h with
  | nil => rfl
  | cons _ _ _ _ _ _ _ ih => simp [ih]

theorem madeOf_eq (h : SameRecs T T' s) (aad w c : Bytes) : madeOf T aad w c = madeOf T' aad w c := by
  induction h with
  | nil => rfl
  | cons a w' ct nonce m key _ ih =>
    simp only [madeOf, List.find?_cons] at ih ⊢
    cases decide (a = aad ∧ w' = w ∧ ct ++ nonce.1 = c) with
    | true => rfl
    | false => exact ih

theorem lookup (h : SameRecs T T' s) (w : Bytes) :
    ((givenOut T).lookup w = none ∧ (givenOut T').lookup w = none) ∨
    ∃ e j, (givenOut T).lookup w = some e.key ∧ (givenOut T').lookup w = some j ∧ s[j]? = some e ∧
      madeOf T e.aad w (e.ct ++ e.nonce) ≠ none := by
  induction h with
  | nil => exact .inl ⟨rfl, rfl⟩
  | @cons T T' s a w' ct nonce m key hs ih =>
    simp only [givenOut, List.map_cons, List.lookup_cons] at ih ⊢
    by_cases hw : w = w'
    · subst hw
      refine .inr ⟨⟨key, nonce.1, a, ct⟩, T'.length, ?_, ?_, ?_, ?_⟩
      · simp
      · simp
      · rw [hs.length]; simp
      · simp [madeOf]
    · have hb : (w == w') = false := by simpa using hw
      simp only [hb]
      rcases ih with ih | ⟨e, j, h1, h2, h3, h5⟩
      · exact .inl ih
      · refine .inr ⟨e, j, h1, h2, ?_, ?_⟩
        · rw [List.getElem?_append_left (List.getElem?_eq_some_iff.mp h3).1, h3]
        · intro hn
          refine h5 ?_
          simp only [madeOf, List.find?_cons] at hn ⊢
          split at hn
          · exact nomatch hn
          · exact hn

end SameRecs

theorem play_toForge {P : Prims} (L : P.Laws) (kek : BytesN 32) (t : IAdv) :
    ∀ T T' s, SameRecs T T' s → (toForge P kek t T').play (forgeOracle P true) s = t.play (boxSwap P kek) T := by
  induction t with
  | done b => intro T T' s h; rfl
  | toss n k ih => intro T T' s h; simp only [toForge, OAdv.play]; congr 1; funext x; exact ih x T T' s h
  | ask q k ih =>
    intro T T' s h
    cases q with
    | «seal» m aad =>
      simp only [toForge, OAdv.play, forgeOracle, boxSwap, PMF.bind_bind, PMF.pure_bind, wrapped_eq L]
      congr 1; funext key
      rw [PMF.bind_comm]
      congr 1; funext other; congr 1; funext nonce
      exact ih _ _ _ _ (h.cons aad _ _ nonce m key)
    | «open» aad w c =>
      simp only [toForge, OAdv.play, boxSwap, PMF.pure_bind, h.madeOf_eq]
      cases hi : madeOf T' aad w c with
      | some x => exact ih _ _ _ _ h
      | none =>
        simp only
        rcases h.lookup w with ⟨h1, h2⟩ | ⟨e, j, h1, h2, h3, h5⟩
        · rw [h1, h2]
          exact ih _ _ _ _ h
        · rw [h1, h2]
          simp only [unboxedWith_eq]
          split
          · exact ih _ _ _ _ h
          · next hl =>
            simp only [OAdv.play, forgeOracle, PMF.pure_bind, h3]
            refine Eq.trans (congrArg (fun r : Option Bytes => OAdv.play (forgeOracle P true)
              (toForge P kek (k (parsedAs P c r)) T') s) (if_neg ?_)) (ih _ _ _ _ h)
            rintro ⟨e1, e2, e3⟩
            refine h5 ?_
            rw [e1, e2, e3, List.take_append_drop, h.madeOf_eq]
            exact hi

theorem none_anyway {c : Prop} [Decidable c] (o : Option Bytes) : (if c then none else if false = true then o else none) = none := by
  simp

theorem play_toForge_shut {P : Prims} (L : P.Laws) (kek : BytesN 32) (t : IAdv) :
    ∀ T T' s, SameRecs T T' s → (toForge P kek t T').play (forgeOracle P false) s = t.play (boxShut P kek) T := by
  induction t with
  | done b => intro T T' s h; rfl
  | toss n k ih => intro T T' s h; simp only [toForge, OAdv.play]; congr 1; funext x; exact ih x T T' s h
  | ask q k ih =>
    intro T T' s h
    cases q with
    | «seal» m aad =>
      simp only [toForge, OAdv.play, forgeOracle, boxShut, boxSwap, PMF.bind_bind, PMF.pure_bind, wrapped_eq L]
      congr 1; funext key
      rw [PMF.bind_comm]
      congr 1; funext other; congr 1; funext nonce
      exact ih _ _ _ _ (h.cons aad _ _ nonce m key)
    | «open» aad w c =>
      simp only [toForge, OAdv.play, boxShut, PMF.pure_bind, h.madeOf_eq]
      cases hi : madeOf T' aad w c with
      | some x => exact ih _ _ _ _ h
      | none =>
        simp only
        rcases h.lookup w with ⟨h1, h2⟩ | ⟨e, j, h1, h2, h3, h5⟩
        · rw [h1, h2]
          exact ih _ _ _ _ h
        · rw [h1, h2]
          simp only
          split
          · exact ih _ _ _ _ h
          · next hl =>
            simp only [OAdv.play, forgeOracle, PMF.pure_bind, h3]
            refine Eq.trans (congrArg (fun r : Option Bytes => OAdv.play (forgeOracle P false)
              (toForge P kek (k (parsedAs P c r)) T') s) (a₂ := none) ?_) (ih _ _ _ _ h)
            exact none_anyway _

/-! ## When nothing is opened but what was made -/

namespace IProg
variable {X R F : Type}

/-- One more thing was shown. -/
def _root_.D1.plus (H : Outcome R ⊕ Eff → Prop) (s : Outcome R ⊕ Eff) : Outcome R ⊕ Eff → Prop := fun s' => H s' ∨ s' = s

theorem plus_plus (H : Outcome R ⊕ Eff → Prop) (s : Outcome R ⊕ Eff) : plus (plus H s) s = plus H s :=
  funext fun s' => propext ⟨fun h => h.elim id .inr, .inl⟩

/-- `B` is true of what was shown, after all further requests and outcomes. -/
def Stays (B : (Outcome R ⊕ Eff → Prop) → Prop) : (Outcome R ⊕ Eff → Prop) → IProg R → Prop
  | H, ret a => B (plus H (.inl (.ok a)))
  | H, err e => B (plus H (.inl (.err e)))
  | H, panic => B (plus H (.inl .panic))
  | H, diverge => B (plus H (.inl .diverge))
  | H, op (.rand n) k => ∀ b : BytesN n, (k (some b)).Stays B H
  | H, op e k => B (plus H (.inr e)) ∧ ∀ r, (k r).Stays B (plus H (.inr e))
  | H, box _ _ k => ∀ r, (k r).Stays B H
  | H, unbox _ _ _ k => ∀ r, (k r).Stays B H

/-- The same, and nothing is opened before the next request. -/
def Soon (B : (Outcome R ⊕ Eff → Prop) → Prop) : (Outcome R ⊕ Eff → Prop) → IProg R → Prop
  | H, ret a => B (plus H (.inl (.ok a)))
  | H, err e => B (plus H (.inl (.err e)))
  | H, panic => B (plus H (.inl .panic))
  | H, diverge => B (plus H (.inl .diverge))
  | H, op (.rand n) k => ∀ b : BytesN n, (k (some b)).Soon B H
  | H, op e k => B (plus H (.inr e)) ∧ ∀ r, (k r).Stays B (plus H (.inr e))
  | H, box _ _ k => ∀ r, (k r).Soon B H
  | _, unbox _ _ _ _ => False

/-- What is true of everything that may be shown later stays true. -/
theorem stays_all {B : (Outcome R ⊕ Eff → Prop) → Prop} (p : IProg R) :
    ∀ {H : Outcome R ⊕ Eff → Prop}, (∀ H', (∀ s, H s → H' s) → B H') → p.Stays B H := by
  induction p with
  | op e k ih =>
    intro H h
    cases e with
    | rand n => exact fun b => ih _ h
    | _ => exact ⟨h _ fun s => .inl, fun r => ih r fun H' hH => h H' fun s hs => hH s (.inl hs)⟩
  | box m aad k ih => exact fun h r => ih r h
  | unbox aad w c k ih => exact fun h r => ih r h
  | _ => exact fun h => h _ fun s => .inl

/-- A request is made of which it is known that `B` is true then. -/
theorem soon_sent {B : (Outcome R ⊕ Eff → Prop) → Prop} {H : Outcome R ⊕ Eff → Prop} {e : Eff} {k : e.Resp → IProg R}
    (he : ∀ n, e ≠ .rand n) (h : ∀ H', (∀ s, H s → H' s) → H' (.inr e) → B H') : (op e k).Soon B H := by
  have hB := h (plus H (.inr e)) (fun s => .inl) (.inr rfl)
  have hS : ∀ r, (k r).Stays B (plus H (.inr e)) := fun r => stays_all _ fun H' hH => h H' (fun s hs => hH s (.inl hs)) (hH _ (.inr rfl))
  cases e with
  | rand n => exact (he n rfl).elim
  | _ => exact ⟨hB, hS⟩

/-- Only random bytes are drawn. -/
def _root_.D1.Prog.Draws {β : Type} : Prog β → Prop
  | .ret _ => True
  | .op (.rand n) k => ∀ b : BytesN n, (k (some b)).Draws
  | _ => False

theorem soon_draws {β : Type} {B : (Outcome R ⊕ Eff → Prop) → Prop} {H : Outcome R ⊕ Eff → Prop} {p : Prog β} (hp : p.Draws)
    {k : β → IProg R} (hk : ∀ b, (k b).Soon B H) : (after p k).Soon B H := by
  induction p with
  | op e c ih =>
    cases e with
    | rand n => exact fun b => ih _ (hp b)
    | _ => exact hp.elim
  | ret a => exact hk a
  | _ => exact hp.elim

theorem after_bind {α β : Type} (p : Prog α) (f : α → Prog β) (k : β → IProg R) : after (p.bind f) k = after p fun a => after (f a) k := by
  induction p with
  | op e c ih => exact congrArg (IProg.op e) (funext ih)
  | _ => rfl

/-- What is needed is among the facts `L`. -/
def _root_.D1.Terms.Met (t : Terms X R F) (x : X) (s : R ⊕ Eff) (L : F → Prop) : Prop :=
  ∀ D, t.needs x s D → ∃ f, D f ∧ L f

/-- All requests are such. -/
def _root_.D1.Prog.Sends {β : Type} (Q : Eff → Prop) : Prog β → Prop
  | .op e k => Q e ∧ ∀ r, (k r).Sends Q
  | _ => True

/-- The program keeps to the terms if every box that was made with `aad` and `m` stands for the facts `facts aad m`: it makes
only boxes for facts that it brings about or read from boxes (`L`), and has only results for which it read what is needed.
`H` is what was shown. -/
def Keeps (facts : Bytes → J → F → Prop) (t : Terms X R F) (x : X) : (F → Prop) → (Outcome R ⊕ Eff → Prop) → IProg R → Prop
  | L, _, ret a => t.Met x (.inl a) L
  | L, H, op (.rand n) k => ∀ b : BytesN n, (k (some b)).Keeps facts t x L H
  | L, H, op e k => t.Met x (.inr e) L ∧ ∀ r, (k r).Keeps facts t x L (plus H (.inr e))
  | L, H, box m aad k => ∀ r, (∀ f, facts aad m f → L f ∨ (k r).Soon (t.brings x f) H) ∧ (k r).Keeps facts t x L H
  | L, H, unbox aad _ _ k => (∀ e, (k (.error e)).Keeps facts t x L H) ∧
      ∀ m : J, (k (.ok (some m.san))).Keeps facts t x (fun f => L f ∨ facts aad m f) H
  | _, _, _ => True

/-- There was no outcome yet. -/
def _root_.D1.Unended (H : Outcome R ⊕ Eff → Prop) : Prop := ∀ o, ¬H (.inl o)

theorem _root_.D1.Unended.plus {H : Outcome R ⊕ Eff → Prop} (h : Unended H) (e : Eff) : Unended (plus H (.inr e)) :=
  fun o ho => ho.elim (h o) nofun

theorem keeps_after {β : Type} {facts : Bytes → J → F → Prop} {t : Terms X R F} {x : X} {L : F → Prop} {k : β → IProg R}
    {H : Outcome R ⊕ Eff → Prop} (p : Prog β) (hp : p.Sends fun e => t.Met x (.inr e) L) (hH : Unended H)
    (hk : ∀ a H', Unended H' → (∀ s, H s → H' s) → (k a).Keeps facts t x L H') : (after p k).Keeps facts t x L H := by
  induction p generalizing H with
  | op e c ih =>
    cases e with
    | rand n => exact fun b => ih _ (hp.2 _) hH hk
    | _ => exact ⟨hp.1, fun r => ih r (hp.2 r) (hH.plus _) fun a H' h1 h2 => hk a H' h1 fun s hs => h2 s (.inl hs)⟩
  | ret a => exact hk a _ hH fun _ => id
  | _ => trivial

theorem _root_.D1.Prog.sends_bind {β γ : Type} {Q : Eff → Prop} {p : Prog β} {f : β → Prog γ} (hp : p.Sends Q)
    (hf : ∀ b, (f b).Sends Q) : (p.bind f).Sends Q := by
  induction p with
  | op e c ih => exact ⟨hp.1, fun r => ih r (hp.2 r)⟩
  | ret a => exact hf a
  | _ => trivial

theorem _root_.D1.Prog.sends_all {β : Type} {Q : Eff → Prop} (h : ∀ e, Q e) (p : Prog β) : p.Sends Q := by
  induction p with
  | op e c ih => exact ⟨h e, ih⟩
  | _ => trivial

/-- All requests are such, and all results. -/
def _root_.D1.Prog.Does {R : Type} (Q : R ⊕ Eff → Prop) : Prog R → Prop
  | .ret a => Q (.inl a)
  | .op e k => Q (.inr e) ∧ ∀ r, (k r).Does Q
  | _ => True

theorem _root_.D1.Prog.does_all {R : Type} {Q : R ⊕ Eff → Prop} (h : ∀ s, Q s) (p : Prog R) : p.Does Q := by
  induction p with
  | op e c ih => exact ⟨h _, ih⟩
  | ret a => exact h _
  | _ => trivial

theorem _root_.D1.Prog.does_bind {R β : Type} {Q : R ⊕ Eff → Prop} {p : Prog β} {f : β → Prog R} (hp : p.Sends fun e => Q (.inr e))
    (hf : ∀ b, (f b).Does Q) : (p.bind f).Does Q := by
  induction p with
  | op e c ih => exact ⟨hp.1, fun r => ih r (hp.2 r)⟩
  | ret a => exact hf a
  | _ => trivial

/-- What is known of a result is known of what is made from it. -/
theorem _root_.D1.Prog.does_map {α β : Type} {Q : α → Prop} {Q' : β → Prop} {E : Eff → Prop} {p : Prog α} {f : α → Prog β}
    (hp : p.Does (Sum.elim Q E)) (hf : ∀ a, Q a → (f a).Does (Sum.elim Q' E)) : (p.bind f).Does (Sum.elim Q' E) := by
  induction p with
  | op e c ih => exact ⟨hp.1, fun r => ih r (hp.2 r)⟩
  | ret a => exact hf a hp
  | _ => trivial

theorem _root_.D1.Prog.does_mapErr {α : Type} {Q : α → Prop} {E : Eff → Prop} {p : Prog α} (e : Err) (hp : p.Does (Sum.elim Q E)) :
    (p.mapErr e).Does (Sum.elim Q E) := by
  induction p with
  | op e c ih => exact ⟨hp.1, fun r => ih r (hp.2 r)⟩
  | ret a => exact hp
  | _ => trivial

/-- Going on after a program with what is known of its result. -/
theorem keeps_afterwards {β : Type} {facts : Bytes → J → F → Prop} {t : Terms X R F} {x : X} {L : F → Prop} {k : β → IProg R}
    {H : Outcome R ⊕ Eff → Prop} {Q : β → Prop} {p : Prog β} (hp : p.Does (Sum.elim Q fun e => t.Met x (.inr e) L)) (hH : Unended H)
    (hk : ∀ b H', Q b → Unended H' → (∀ s, H s → H' s) → (k b).Keeps facts t x L H') : (after p k).Keeps facts t x L H := by
  induction p generalizing H with
  | op e c ih =>
    cases e with
    | rand n => exact fun b => ih _ (hp.2 _) hH hk
    | _ => exact ⟨hp.1, fun r => ih r (hp.2 r) (hH.plus _) fun a H' hq h1 h2 => hk a H' hq h1 fun s hs => h2 s (.inl hs)⟩
  | ret a => exact hk a _ hp hH fun _ => id
  | _ => trivial

theorem keeps_lift {facts : Bytes → J → F → Prop} {t : Terms X R F} {x : X} {L : F → Prop} {H : Outcome R ⊕ Eff → Prop} {p : Prog R}
    (hp : p.Does fun s => t.Met x s L) : (lift p).Keeps facts t x L H := by
  induction p generalizing H with
  | op e c ih =>
    cases e with
    | rand n => exact fun b => ih _ (hp.2 _)
    | _ => exact ⟨hp.1, fun r => ih r (hp.2 r)⟩
  | ret a => exact hp
  | _ => trivial

theorem keeps_read {α : Type} {facts : Bytes → J → F → Prop} {t : Terms X R F} {x : X} {L : F → Prop} {H : Outcome R ⊕ Eff → Prop}
    {dec : J → Option α} {aad w c : Bytes} {k : α → IProg R}
    (hk : ∀ m a, dec m.san = some a → (k a).Keeps facts t x (fun f => L f ∨ facts aad m f) H) :
    (read dec aad w c k).Keeps facts t x L H := by
  refine ⟨fun e => trivial, fun m => ?_⟩
  show Keeps facts t x _ _ (match readAs dec (.ok (some m.san)) with | .error e => err e | .ok a => k a)
  cases hd : dec m.san with
  | none => simp only [readAs, Option.bind_some, hd]; trivial
  | some a => simp only [readAs, Option.bind_some, hd]; exact hk m a hd

end IProg

section
variable {X R F : Type} (facts : Bytes → J → F → Prop) (t : Terms X R F)

/-- A program that was begun has brought about the fact. -/
def Claimed (cs : List (Option X)) (v : List (Sight R)) (ps : List (IProg R)) (f : F) : Prop :=
  ∃ (i : Nat) (x : X) (p : IProg R), cs[i]? = some (some x) ∧ ps[i]? = some p ∧ t.brings x f (Shown v i) ∧
    p.Stays (t.brings x f) (Shown v i)

/-- Program `j` is about to bring about the fact. -/
def Due (cs : List (Option X)) (v : List (Sight R)) (ps : List (IProg R)) (f : F) (j : Nat) : Prop :=
  ∃ (x : X) (p : IProg R), cs[j]? = some (some x) ∧ ps[j]? = some p ∧ p.Soon (t.brings x f) (Shown v j)

/-- The invariant; `o` is the program that is running. -/
structure TrialInv (o : Option Nat) (cs : List (Option X)) (v : List (Sight R)) (ps : List (IProg R)) (T : List (IRec (BytesN 32))) : Prop where
  len : cs.length = ps.length
  seen : ∀ i s, Shown v i s → i < ps.length
  recs : ∀ e ∈ T, ∀ f, facts e.aad e.m f → Claimed t cs v ps f ∨ ∃ j, o = some j ∧ Due t cs v ps f j
  run : ∀ (i : Nat) (x : X) (p : IProg R), cs[i]? = some (some x) → ps[i]? = some p →
    ∃ L : F → Prop, (∀ f, L f → Claimed t cs v ps f) ∧ p.Keeps facts t x L (Shown v i)
  other : ∀ (i : Nat) (p : IProg R), cs[i]? = some none → ps[i]? = some p → ∃ q, p = IProg.lift q

variable {facts} {t} {o : Option Nat} {cs : List (Option X)} {v : List (Sight R)} {ps : List (IProg R)} {T : List (IRec (BytesN 32))}

/-- A program goes on. -/
theorem Claimed.set {j : Nat} {p p' : IProg R} (hj : ps[j]? = some p)
    (hE : ∀ B H, p.Stays B H → p'.Stays B H) {f : F} (h : Claimed t cs v ps f) : Claimed t cs v (ps.set j p') f := by
  obtain ⟨i, x, q, h1, h2, h3, h4⟩ := h
  have hl := (List.getElem?_eq_some_iff.mp hj).1
  by_cases hi : i = j
  · subst hi
    obtain rfl : p = q := Option.some.inj (hj.symm.trans h2)
    exact ⟨i, x, p', h1, by simp [hl], h3, hE _ _ h4⟩
  · exact ⟨i, x, q, h1, by rw [List.getElem?_set_ne (Ne.symm hi)]; exact h2, h3, h4⟩

theorem TrialInv.set {j : Nat} (h : TrialInv facts t (some j) cs v ps T) {p p' : IProg R} (hj : ps[j]? = some p)
    (hE : ∀ B H, p.Stays B H → p'.Stays B H)
    (hl : (∃ q, p = IProg.lift q) → ∃ q, p' = IProg.lift q) (T' : List (IRec (BytesN 32)))
    (hT : ∀ e ∈ T', ∀ f, facts e.aad e.m f → (e ∈ T ∧ ∀ B H, p.Soon B H → p'.Soon B H) ∨
      ∃ x, cs[j]? = some (some x) ∧ (Claimed t cs v ps f ∨ p'.Soon (t.brings x f) (Shown v j)))
    (hK : ∀ x, cs[j]? = some (some x) → ∀ L, (∀ f, L f → Claimed t cs v ps f) → p.Keeps facts t x L (Shown v j) →
      ∃ L, (∀ f, L f → Claimed t cs v ps f) ∧ p'.Keeps facts t x L (Shown v j)) : TrialInv facts t (some j) cs v (ps.set j p') T' := by
  have hjl := (List.getElem?_eq_some_iff.mp hj).1
  have hjs : (ps.set j p')[j]? = some p' := by simp [hjl]
  refine ⟨by simp [h.len], fun i s hs => by simpa using h.seen i s hs, ?_, ?_, ?_⟩
  · intro e he f hf
    rcases hT e he f hf with ⟨he, hS⟩ | ⟨x, hx, hc | hs⟩
    · rcases h.recs e he f hf with hc | ⟨_, ⟨⟩, x, q, hx, hq, hs⟩
      · exact .inl (hc.set hj hE)
      · obtain rfl : p = q := Option.some.inj (hj.symm.trans hq)
        exact .inr ⟨_, rfl, x, p', hx, hjs, hS _ _ hs⟩
    · exact .inl (hc.set hj hE)
    · exact .inr ⟨_, rfl, x, p', hx, hjs, hs⟩
  · intro i x q hi hq
    by_cases hij : i = j
    · subst hij
      obtain rfl : p' = q := by simpa [hjl] using hq
      obtain ⟨L, hL, hp⟩ := h.run i x p hi hj
      obtain ⟨L, hL, hp⟩ := hK x hi L hL hp
      exact ⟨L, fun f hf => (hL f hf).set hj hE, hp⟩
    · rw [List.getElem?_set_ne (Ne.symm hij)] at hq
      obtain ⟨L, hL, hp⟩ := h.run i x q hi hq
      exact ⟨L, fun f hf => (hL f hf).set hj hE, hp⟩
  · intro i q hi hq
    by_cases hij : i = j
    · subst hij
      obtain rfl : p' = q := by simpa [hjl] using hq
      exact hl (h.other i p hi hj)
    · rw [List.getElem?_set_ne (Ne.symm hij)] at hq
      exact h.other i q hi hq

theorem lift_op {e : Eff} {k : e.Resp → IProg R} (h : ∃ q, IProg.op e k = IProg.lift q) (r : e.Resp) : ∃ q, k r = IProg.lift q := by
  obtain ⟨q, hq⟩ := h
  cases q with
  | op e' c =>
    simp only [IProg.lift, IProg.after, IProg.op.injEq] at hq
    obtain ⟨rfl, hk⟩ := hq
    rw [eq_of_heq hk]
    exact ⟨c r, rfl⟩
  | _ => cases hq

theorem TrialInv.rand {j : Nat} (h : TrialInv facts t (some j) cs v ps T) {n : Nat} {k : Option (BytesN n) → IProg R}
    (hj : ps[j]? = some (.op (.rand n) k)) (b : BytesN n) : TrialInv facts t (some j) cs v (ps.set j (k (some b))) T :=
  h.set hj (fun B H hq => hq b) (fun hl => lift_op hl (some b)) T (fun e he f hf => .inl ⟨he, fun B H hs => hs b⟩)
    fun x _ L hL hp => ⟨L, hL, hp b⟩

theorem TrialInv.box {j : Nat} (h : TrialInv facts t (some j) cs v ps T) {m : J} {aad : Bytes} {k : Bytes × Bytes → IProg R}
    (hj : ps[j]? = some (.box m aad k)) (w c : Bytes) (key : BytesN 32) :
    TrialInv facts t (some j) cs v (ps.set j (k (w, c))) (⟨aad, w, c, m, key⟩ :: T) := by
  have hjl := (List.getElem?_eq_some_iff.mp hj).1
  have hnl : ¬∃ q, IProg.box m aad k = IProg.lift q := by
    rintro ⟨q, hq⟩
    cases q <;> cases hq
  refine h.set hj (fun B H hq => hq _) (fun hl => absurd hl hnl) _ ?_ fun x _ L hL hp => ⟨L, hL, (hp _).2⟩
  intro e he f hf
  rcases List.mem_cons.mp he with rfl | he
  · refine .inr ?_
    obtain ⟨o, ho⟩ : ∃ o, cs[j]? = some o := ⟨cs[j]'(h.len ▸ hjl), by simp [h.len ▸ hjl]⟩
    cases o with
    | none => exact absurd (h.other j _ ho hj) hnl
    | some x =>
      obtain ⟨L, hL, hp⟩ := h.run j x _ ho hj
      exact ⟨x, ho, ((hp (w, c)).1 f hf).imp (hL f) id⟩
  · exact .inl ⟨he, fun B H hs => hs _⟩

theorem TrialInv.unbox {j : Nat} (h : TrialInv facts t (some j) cs v ps T) {aad w c : Bytes} {k : Except Err (Option J) → IProg R}
    (hj : ps[j]? = some (.unbox aad w c k)) {r : Except Err (Option J)}
    (hr : (∃ e, r = .error e) ∨ ∃ e ∈ T, e.aad = aad ∧ r = .ok (some e.m.san)) :
    TrialInv facts t (some j) cs v (ps.set j (k r)) T := by
  have hnl : ¬∃ q, IProg.unbox aad w c k = IProg.lift q := by
    rintro ⟨q, hq⟩
    cases q <;> cases hq
  have hrecs : ∀ e ∈ T, ∀ f, facts e.aad e.m f → Claimed t cs v ps f := by
    intro e he f hf
    rcases h.recs e he f hf with hc | ⟨_, ⟨⟩, x, q, hx, hq, hs⟩
    · exact hc
    · obtain rfl : _ = q := Option.some.inj (hj.symm.trans hq)
      exact hs.elim
  refine h.set hj (fun B H hq => hq _) (fun hl => absurd hl hnl) _ (fun e he f hf => .inl ⟨he, fun B H hs => hs.elim⟩) ?_
  intro x _ L hL hp
  rcases hr with ⟨e, rfl⟩ | ⟨e, he, rfl, rfl⟩
  · exact ⟨L, hL, hp.1 e⟩
  · exact ⟨_, fun f hf => hf.elim (hL f) fun hf => hrecs e he f hf, hp.2 e.m⟩

theorem TrialInv.start (h : TrialInv facts t none cs v ps T) (j : Nat) : TrialInv facts t (some j) cs v ps T :=
  ⟨h.len, h.seen, fun e he f hf => .inl ((h.recs e he f hf).resolve_right (by rintro ⟨_, hn, _⟩; exact nomatch hn)), h.run, h.other⟩

theorem shown_other {v : List (Sight R)} {z : Sight R} {i : Nat} (h : ∀ s, ¬Shown [z] i s) : Shown (v ++ [z]) i = Shown v i := by
  funext s
  have h := h s
  apply propext
  cases s with
  | inl o => exact ⟨fun hs => (List.mem_append.mp hs).resolve_right h, fun hs => List.mem_append_left _ hs⟩
  | inr e => exact ⟨fun ⟨r, hs⟩ => ⟨r, (List.mem_append.mp hs).resolve_right fun hm => h ⟨r, hm⟩⟩, fun ⟨r, hs⟩ => ⟨r, List.mem_append_left _ hs⟩⟩

theorem shown_self {v : List (Sight R)} {z : Sight R} {i : Nat} {y : Outcome R ⊕ Eff} (h : ∀ s, Shown [z] i s ↔ s = y) :
    Shown (v ++ [z]) i = plus (Shown v i) y := by
  funext s
  have h := h s
  apply propext
  rw [plus, ← h]
  cases s with
  | inl o => exact List.mem_append
  | inr e => exact ⟨fun ⟨r, hs⟩ => (List.mem_append.mp hs).imp (⟨r, ·⟩) (⟨r, ·⟩), fun hs => hs.elim (fun ⟨r, hm⟩ => ⟨r, List.mem_append_left _ hm⟩)
      fun ⟨r, hm⟩ => ⟨r, List.mem_append_right _ hm⟩⟩

/-- A program shows something, and stops running. -/
theorem TrialInv.show {j : Nat} (h : TrialInv facts t (some j) cs v ps T) {p p' : IProg R} (hj : ps[j]? = some p) {z : Sight R}
    {y : Outcome R ⊕ Eff} (hz : ∀ s, Shown [z] j s ↔ s = y) (hz' : ∀ i, i ≠ j → ∀ s, ¬Shown [z] i s)
    (hE : ∀ B H, p.Stays B H → B (plus H y) ∧ p'.Stays B (plus H y)) (hS : ∀ B H, p.Soon B H → B (plus H y) ∧ p'.Stays B (plus H y))
    (hl : (∃ q, p = IProg.lift q) → ∃ q, p' = IProg.lift q)
    (hK : ∀ x L H, p.Keeps facts t x L H → p'.Keeps facts t x L (plus H y)) : TrialInv facts t none cs (v ++ [z]) (ps.set j p') T := by
  have hjl := (List.getElem?_eq_some_iff.mp hj).1
  have hjs : (ps.set j p')[j]? = some p' := by simp [hjl]
  have hC : ∀ f, Claimed t cs v ps f → Claimed t cs (v ++ [z]) (ps.set j p') f := by
    rintro f ⟨i, x, q, h1, h2, h3, h4⟩
    by_cases hi : i = j
    · subst hi
      obtain rfl : p = q := Option.some.inj (hj.symm.trans h2)
      have := hE _ _ h4
      exact ⟨i, x, p', h1, hjs, by rw [shown_self hz]; exact this.1, by rw [shown_self hz]; exact this.2⟩
    · refine ⟨i, x, q, h1, by rw [List.getElem?_set_ne (Ne.symm hi)]; exact h2, ?_⟩
      rw [shown_other (hz' i hi)]
      exact ⟨h3, h4⟩
  refine ⟨by simp [h.len], ?_, ?_, ?_, ?_⟩
  · intro i s hs
    rw [List.length_set]
    by_cases hi : i = j
    · exact hi ▸ hjl
    · rw [shown_other (hz' i hi)] at hs
      exact h.seen i s hs
  · intro e he f hf
    rcases h.recs e he f hf with hc | ⟨_, ⟨⟩, x, q, hx, hq, hs⟩
    · exact .inl (hC f hc)
    · obtain rfl : p = q := Option.some.inj (hj.symm.trans hq)
      have := hS _ _ hs
      exact .inl ⟨j, x, p', hx, hjs, by rw [shown_self hz]; exact this.1, by rw [shown_self hz]; exact this.2⟩
  · intro i x q hi hq
    by_cases hij : i = j
    · subst hij
      obtain rfl : p' = q := by simpa [hjl] using hq
      obtain ⟨L, hL, hp⟩ := h.run i x p hi hj
      exact ⟨L, fun f hf => hC f (hL f hf), by rw [shown_self hz]; exact hK x L _ hp⟩
    · rw [List.getElem?_set_ne (Ne.symm hij)] at hq
      obtain ⟨L, hL, hp⟩ := h.run i x q hi hq
      exact ⟨L, fun f hf => hC f (hL f hf), by rw [shown_other (hz' i hij)]; exact hp⟩
  · intro i q hi hq
    by_cases hij : i = j
    · subst hij
      obtain rfl : p' = q := by simpa [hjl] using hq
      exact hl (h.other i p hi hj)
    · rw [List.getElem?_set_ne (Ne.symm hij)] at hq
      exact h.other i q hi hq

theorem TrialInv.begin (h : TrialInv facts t none cs v ps T) (c : Option X) (p : IProg R)
    (hp : match c with | some x => p.Keeps facts t x (fun _ => False) (fun _ => False) | none => ∃ q, p = IProg.lift q) :
    TrialInv facts t none (cs ++ [c]) v (ps ++ [p]) T := by
  have hC : ∀ f, Claimed t cs v ps f → Claimed t (cs ++ [c]) v (ps ++ [p]) f := by
    rintro f ⟨i, x, q, h1, h2, h3⟩
    refine ⟨i, x, q, ?_, ?_, h3⟩
    · rw [List.getElem?_append_left (List.getElem?_eq_some_iff.mp h1).1, h1]
    · rw [List.getElem?_append_left (List.getElem?_eq_some_iff.mp h2).1, h2]
  refine ⟨by simp [h.len], fun i s hs => by have := h.seen i s hs; simp only [List.length_append]; omega,
    fun e he f hf => .inl (hC f ((h.recs e he f hf).resolve_right (by rintro ⟨_, hn, _⟩; exact nomatch hn))), ?_, ?_⟩
  · intro i x q hi hq
    by_cases hl : i < ps.length
    · rw [List.getElem?_append_left (h.len ▸ hl)] at hi
      rw [List.getElem?_append_left hl] at hq
      obtain ⟨L, hL, hk⟩ := h.run i x q hi hq
      exact ⟨L, fun f hf => hC f (hL f hf), hk⟩
    · have hil := (List.getElem?_eq_some_iff.mp hq).1
      simp only [List.length_append, List.length_singleton] at hil
      obtain rfl : i = ps.length := by omega
      rw [← h.len] at hi
      simp only [List.getElem?_concat_length, Option.some.injEq] at hi hq
      subst hi hq
      have hs : Shown v ps.length = fun _ => False := funext fun s => propext ⟨fun hs => absurd (h.seen _ s hs) (by omega), False.elim⟩
      exact ⟨fun _ => False, fun f hf => hf.elim, by rw [hs]; exact hp⟩
  · intro i q hi hq
    by_cases hl : i < ps.length
    · rw [List.getElem?_append_left (h.len ▸ hl)] at hi
      rw [List.getElem?_append_left hl] at hq
      exact h.other i q hi hq
    · have hil := (List.getElem?_eq_some_iff.mp hq).1
      simp only [List.length_append, List.length_singleton] at hil
      obtain rfl : i = ps.length := by omega
      rw [← h.len] at hi
      simp only [List.getElem?_concat_length, Option.some.injEq] at hi hq
      subst hi hq
      exact hp

/-- The invariant stays while a program draws, seals and opens. -/
theorem shut_tree (P : Prims) (kek : BytesN 32) (j : Nat) (hj : j < ps.length) (K : IProg R → IAdv)
    (hK : ∀ p T, p.Calm → TrialInv facts t (some j) cs v (ps.set j p) T → (K p).play (boxShut P kek) T = PMF.pure false) (p : IProg R) :
    ∀ T, TrialInv facts t (some j) cs v (ps.set j p) T → (p.tree K).play (boxShut P kek) T = PMF.pure false := by
  have hget : ∀ p : IProg R, (ps.set j p)[j]? = some p := fun p => by simp [hj]
  have hset : ∀ p q : IProg R, (ps.set j p).set j q = ps.set j q := fun p q => List.set_set ..
  induction p with
  | op e k ih =>
    intro T hT
    cases e with
    | rand n =>
      simp only [IProg.tree, OAdv.play]
      refine Eq.trans (congrArg (PMF.bind _) (funext fun b => ih (some b) T ?_)) (PMF.bind_const _ _)
      have := hT.rand (hget _) b
      rwa [hset] at this
    | _ => exact hK (.op _ k) T trivial hT
  | box m aad k ih =>
    intro T hT
    simp only [IProg.tree, OAdv.play, boxShut, boxSwap, PMF.bind_bind, PMF.pure_bind]
    refine Eq.trans (congrArg (PMF.bind _) (funext fun key => ?_)) (PMF.bind_const (unif 32) _)
    refine Eq.trans (congrArg (PMF.bind _) (funext fun other => ?_)) (PMF.bind_const (unif 32) _)
    refine Eq.trans (congrArg (PMF.bind _) (funext fun nonce => ih _ _ ?_)) (PMF.bind_const (unif 12) _)
    have := hT.box (hget _) (kwpBox P kek.1 other.1) (gcmBox P key.1 nonce.1 aad m.render) key
    rwa [hset] at this
  | unbox aad w c k ih =>
    intro T hT
    simp only [IProg.tree, OAdv.play, boxShut, PMF.pure_bind]
    refine ih _ T ?_
    have hr : ∀ r, ((∃ e, r = .error e) ∨ ∃ e ∈ T, e.aad = aad ∧ r = .ok (some e.m.san)) →
        TrialInv facts t (some j) cs v (ps.set j (k r)) T := fun r hr => by
      have := hT.unbox (hget _) hr
      rwa [hset] at this
    cases hi : madeOf T aad w c with
    | some x =>
      obtain ⟨e, he, h1, h2, h3, rfl⟩ := madeOf_spec hi
      exact hr _ (.inr ⟨e, he, h1, rfl⟩)
    | none =>
      simp only
      cases (givenOut T).lookup w <;> exact hr _ (.inl ⟨_, rfl⟩)
  | ret a => exact fun T hT => hK _ T trivial hT
  | err e => exact fun T hT => hK _ T trivial hT
  | panic => exact fun T hT => hK _ T trivial hT
  | diverge => exact fun T hT => hK _ T trivial hT

theorem Claimed.vouched {f : F} (hf : Claimed t cs v ps f) : t.Vouched cs v f := by
  obtain ⟨i, x, p, h1, h2, h3, h4⟩ := hf
  exact ⟨i, x, h1, h3⟩

theorem shown_result (j : Nat) (o : Outcome R) : (∀ s, Shown [Sight.result j o] j s ↔ s = .inl o) ∧
    ∀ i, i ≠ j → ∀ s, ¬Shown [Sight.result j o] i s := by
  refine ⟨fun s => ?_, fun i hi s hs => ?_⟩
  · cases s <;> simp [Shown]
  · cases s <;> simp_all [Shown]

theorem shown_request (j : Nat) (e : Eff) (r : e.Resp) : (∀ s, Shown [(Sight.request j ⟨e, r⟩ : Sight R)] j s ↔ s = .inr e) ∧
    ∀ i, i ≠ j → ∀ s, ¬Shown [(Sight.request j ⟨e, r⟩ : Sight R)] i s := by
  refine ⟨fun s => ?_, fun i hi s hs => ?_⟩
  · cases s with
    | inl o => simp [Shown]
    | inr e' =>
      constructor
      · rintro ⟨r', hr⟩
        cases List.mem_singleton.mp hr
        rfl
      · rintro h
        cases h
        exact ⟨r, .head _⟩
  · cases s <;> simp_all [Shown]

/-- The adversary does not win if nothing is opened but what was made. -/
theorem play_shut (P : Prims) (kek : BytesN 32) (A : Spy X R) (S : X → IProg R)
    (hS : ∀ x, (S x).Keeps facts t x (fun _ => False) fun _ => False) (n : Nat) :
    ∀ (cs : List (Option X)) (v : List (Sight R)) (ps : List (IProg R)) (T : List (IRec (BytesN 32))),
      TrialInv facts t none cs v ps T → (A.trialTree S t n cs v ps).play (boxShut P kek) T = PMF.pure false := by
  induction n with
  | zero => intro cs v ps T _; rfl
  | succ n ih =>
    intro cs v ps T h
    cases hm : A.move n v with
    | stop => simp only [Spy.trialTree, hm, OAdv.play]
    | begin x =>
      simp only [Spy.trialTree, hm]
      exact ih _ _ _ T (h.begin (some x) (S x) (hS x))
    | other p =>
      simp only [Spy.trialTree, hm]
      exact ih _ _ _ T (h.begin none (IProg.lift p) ⟨p, rfl⟩)
    | step j =>
      simp only [Spy.trialTree, hm]
      cases hj : ps[j]? with
      | none => exact ih _ v ps T h
      | some p =>
        have hjl := (List.getElem?_eq_some_iff.mp hj).1
        have hset : ∀ p q : IProg R, (ps.set j p).set j q = ps.set j q := fun p q => List.set_set ..
        have h' := h.start j
        rw [show ps = ps.set j p from by
          obtain ⟨hl, rfl⟩ := List.getElem?_eq_some_iff.mp hj
          exact (List.set_getElem_self hl).symm] at h'
        refine shut_tree P kek j hjl _ (fun q T hq h => ?_) p T h'
        have hj : (ps.set j q)[j]? = some q := by simp [hjl]
        cases hn : q.next with
        | inl o =>
          simp only
          rw [if_neg ?_]
          · refine ih _ _ _ T ?_
            have := h.show (p' := q) (y := .inl o) hj (shown_result j o).1 (shown_result j o).2
            rw [hset] at this
            refine this ?_ ?_ id ?_
            · intro B H hB
              cases q <;> first | exact hq.elim | (cases hn; exact ⟨hB, by
                rw [IProg.Stays, IProg.plus_plus]; exact hB⟩) | cases hn
            · intro B H hB
              cases q <;> first | exact hq.elim | (cases hn; exact ⟨hB, by
                rw [IProg.Stays, IProg.plus_plus]; exact hB⟩) | cases hn
            · intro x L H hk
              cases q <;> first | exact hq.elim | exact hk | cases hn
          · rintro ⟨r, rfl, x, D, hx, hD, hno⟩
            obtain rfl : q = .ret r := by
              cases q with
              | ret b => simp only [IProg.next, Sum.inl.injEq, Outcome.ok.injEq] at hn; rw [hn]
              | _ => simp [IProg.next] at hn
            obtain ⟨L, hL, hk⟩ := h.run j x _ hx hj
            obtain ⟨f, hf, hl⟩ := hk D hD
            exact hno ⟨f, hf, (hL f hl).vouched⟩
        | inr x =>
          obtain ⟨e, k⟩ := x
          obtain rfl : q = .op e k := by
            cases q with
            | op e' k' => simp only [IProg.next, Sum.inr.injEq, Sigma.mk.injEq] at hn; obtain ⟨rfl, hk⟩ := hn; rw [eq_of_heq hk]
            | _ => simp [IProg.next] at hn
          simp only
          rw [if_neg ?_]
          · refine ih _ _ _ T ?_
            have := h.show (p' := k (A.answer v e)) (y := .inr e) hj (shown_request j e (A.answer v e)).1 (shown_request j e (A.answer v e)).2
            rw [hset] at this
            refine this ?_ ?_ (fun hl => lift_op hl _) ?_
            · intro B H hB
              cases e <;> first | exact hq.elim | exact ⟨hB.1, hB.2 _⟩
            · intro B H hB
              cases e <;> first | exact hq.elim | exact ⟨hB.1, hB.2 _⟩
            · intro x L H hk
              cases e <;> first | exact hq.elim | exact hk.2 _
          · rintro ⟨x, D, hx, hD, hno⟩
            obtain ⟨L, hL, hk⟩ := h.run j x _ hx hj
            have hm : t.Met x (.inr e) L := by cases e <;> first | exact hq.elim | exact hk.1
            obtain ⟨f, hf, hl⟩ := hm D hD
            exact hno ⟨f, hf, (hL f hl).vouched⟩

end

/-! ## The bound -/

/-- The attack on the key wrapping that an adversary against results amounts to. -/
noncomputable def unwrapAttack {X R F : Type} (P : Prims) (S : X → IProg R) (t : Terms X R F) (A : Spy X R) (n : Nat) :
    OAdv WrapAsk WrapAsk.Ans :=
  toUnwrap P (A.trialTree S t n [] [] []) []

/-- The forger that an adversary against results amounts to. -/
noncomputable def forgeAttack {X R F : Type} (P : Prims) (S : X → IProg R) (t : Terms X R F) (A : Spy X R) (n : Nat) :
    OAdv ForgeAsk ForgeAsk.Ans :=
  .toss 32 fun kek => toForge P kek (A.trialTree S t n [] [] []) []

/-- The game is the attack on wrapped keys. -/
theorem trial_real {X R F : Type} {P : Prims} (L : P.Laws) (t : Terms X R F) (S : X → IProg R) (A : Spy X R) (n : Nat) :
    trialGame (fun kek x => (S x).expand P kek) t A n =
      (unif 32).bind fun kek => (unwrapAttack P S t A n).play (wrapReal P kek) () := by
  simp only [trialGame, unwrapAttack, play_toUnwrap L]
  congr 1; funext kek
  exact (play_trial L A S t kek n [] [] [] [] (fun e he => by simp at he)).symm

/-- With wrappings of other keys it is the attack by forging. -/
theorem trial_ideal {X R F : Type} {P : Prims} (L : P.Laws) (t : Terms X R F) (S : X → IProg R) (A : Spy X R) (n : Nat) :
    (forgeAttack P S t A n).play (forgeOracle P true) [] =
      (unif 32).bind fun kek => (unwrapAttack P S t A n).play (wrapIdeal P kek) [] := by
  simp only [forgeAttack, unwrapAttack, OAdv.play, play_toForge L _ _ [] [] [] .nil]
  congr 1; funext kek
  exact (play_toUnwrap_ideal L kek _ []).symm

/-- Without forgeries the adversary does not win. -/
theorem trial_shut {X R F : Type} {P : Prims} (L : P.Laws) {facts : Bytes → J → F → Prop} {t : Terms X R F} {S : X → IProg R}
    (hS : ∀ x, (S x).Keeps facts t x (fun _ => False) fun _ => False) (A : Spy X R) (n : Nat) :
    (forgeAttack P S t A n).play (forgeOracle P false) [] = PMF.pure false := by
  simp only [forgeAttack, OAdv.play, play_toForge_shut L _ _ [] [] [] .nil]
  refine Eq.trans (congrArg (PMF.bind _) (funext fun kek => play_shut P kek A S hS n [] [] [] [] ?_)) (PMF.bind_const _ _)
  exact ⟨rfl, fun i s hs => by cases s <;> simp [Shown] at hs, by simp, by simp, by simp⟩

theorem trial_chance {X R F : Type} {P : Prims} (L : P.Laws) {facts : Bytes → J → F → Prop} {t : Terms X R F} {S : X → IProg R}
    (hS : ∀ x, (S x).Keeps facts t x (fun _ => False) fun _ => False) (A : Spy X R) (n : Nat) :
    chance (trialGame (fun kek x => (S x).expand P kek) t A n) ≤
      wrapGap P (unwrapAttack P S t A n) + forgeGap P (forgeAttack P S t A n) := by
  simp only [wrapGap, forgeGap, ← trial_real L, ← trial_ideal L, trial_shut L hS, gap]
  have h0 : chance (PMF.pure false) = 0 := by simp [chance]
  rw [h0, sub_zero]
  generalize chance _ = a
  generalize chance _ = b
  have h4 := le_abs_self (a - b)
  have h5 := le_abs_self b
  linarith

/-! ## How many questions are asked -/

theorem asks_toUnwrap (P : Prims) (t : IAdv) : ∀ {n : Nat} T, t.Asks n → (toUnwrap P t T).Asks n := by
  induction t with
  | done b => intros; trivial
  | toss l k ih => intro n T h x; exact ih x T (h x)
  | ask q k ih =>
    intro n T h
    cases n with
    | zero => exact h.elim
    | succ n =>
      cases q with
      | «seal» m aad => exact fun r nonce => ih _ _ (h _)
      | «open» aad w c =>
        simp only [toUnwrap]
        split
        · exact (ih _ _ (h _)).mono (by omega)
        · exact fun r => ih _ _ (h _)

theorem asks_toForge (P : Prims) (kek : BytesN 32) (t : IAdv) : ∀ {n : Nat} T, t.Asks n → (toForge P kek t T).Asks n := by
  induction t with
  | done b => intros; trivial
  | toss l k ih => intro n T h x; exact ih x T (h x)
  | ask q k ih =>
    intro n T h
    cases n with
    | zero => exact h.elim
    | succ n =>
      have ih' : ∀ r T, (toForge P kek (k r) T).Asks (n + 1) := fun r T => (ih _ _ (h _)).mono (by omega)
      cases q with
      | «seal» m aad => exact fun r other => ih _ _ (h _)
      | «open» aad w c =>
        simp only [toForge]
        split
        · exact ih' _ _
        · split
          · exact ih' _ _
          · split
            · exact ih' _ _
            · exact fun r => ih _ _ (h _)

namespace IProg
variable {R : Type}

/-- At most `n` boxes are sealed or opened before the next request, and at most `b` between requests. -/
def Bursts (b : Nat) : Nat → IProg R → Prop
  | n, op (.rand _) k => ∀ r, (k r).Bursts b n
  | _, op _ k => ∀ r, (k r).Bursts b b
  | 0, box _ _ _ => False
  | n + 1, box _ _ k => ∀ r, (k r).Bursts b n
  | 0, unbox _ _ _ _ => False
  | n + 1, unbox _ _ _ k => ∀ r, (k r).Bursts b n
  | _, _ => True

theorem Bursts.mono {b n m : Nat} (hnm : n ≤ m) {p : IProg R} (h : p.Bursts b n) : p.Bursts b m := by
  induction p generalizing n m with
  | op e k ih =>
    cases e with
    | rand l => cases n <;> cases m <;> exact fun r => ih r hnm (h r)
    | _ => cases n <;> cases m <;> exact h
  | box q aad k ih =>
    cases n with
    | zero => exact h.elim
    | succ n => cases m with
      | zero => omega
      | succ m => exact fun r => ih r (by omega) (h r)
  | unbox aad w c k ih =>
    cases n with
    | zero => exact h.elim
    | succ n => cases m with
      | zero => omega
      | succ m => exact fun r => ih r (by omega) (h r)
  | _ => cases m <;> trivial

theorem bursts_after {β : Type} {b n : Nat} (hn : n ≤ b) {k : β → IProg R} (p : Prog β) (hk : ∀ a, (k a).Bursts b n) :
    (after p k).Bursts b n := by
  induction p generalizing n with
  | op e c ih =>
    cases e with
    | rand l => cases n <;> exact fun r => ih r hn hk
    | _ => cases n <;> exact fun r => ih r (Nat.le_refl b) fun a => (hk a).mono hn
  | ret a => exact hk a
  | _ => cases n <;> trivial

theorem bursts_lift {b n : Nat} (hn : n ≤ b) (p : Prog R) : (lift p).Bursts b n :=
  bursts_after hn p fun _ => by cases n <;> trivial

theorem bursts_read {α : Type} {b n : Nat} {dec : J → Option α} {aad w c : Bytes} {k : α → IProg R} (hk : ∀ a, (k a).Bursts b n) :
    (read dec aad w c k).Bursts b (n + 1) := by
  intro r
  show IProg.Bursts b n (match readAs dec r with | .error e => .err e | .ok a => k a)
  cases readAs dec r with
  | error e => cases n <;> trivial
  | ok a => exact hk a

theorem bursts_tree {b c : Nat} {K : IProg R → IAdv}
    (hK : ∀ p : IProg R, p.Calm → p.Bursts b b → (K p).Asks c) (p : IProg R) :
    ∀ {m : Nat}, m ≤ b → p.Bursts b m → (p.tree K).Asks (c + m) := by
  induction p with
  | op e k ih =>
    intro m hm h
    cases e with
    | rand n => cases m <;> exact fun b => ih _ hm (h _)
    | _ => exact (hK (.op _ k) trivial (h.mono hm)).mono (by omega)
  | box q aad k ih =>
    intro m hm h
    cases m with
    | zero => exact h.elim
    | succ m => exact fun r => ih r (by omega) (h r)
  | unbox aad w ct k ih =>
    intro m hm h
    cases m with
    | zero => exact h.elim
    | succ m => exact fun r => ih r (by omega) (h r)
  | ret a => intro m hm h; exact (hK (.ret a) trivial (h.mono hm)).mono (by omega)
  | err e => intro m hm h; exact (hK (.err e) trivial (h.mono hm)).mono (by omega)
  | panic => intro m hm h; exact (hK (.panic) trivial (h.mono hm)).mono (by omega)
  | diverge => intro m hm h; exact (hK (.diverge) trivial (h.mono hm)).mono (by omega)

end IProg

theorem bursts_trial {X R F : Type} (A : Spy X R) {S : X → IProg R} (t : Terms X R F) {b : Nat} (hS : ∀ x, (S x).Bursts b b) :
    ∀ (n : Nat) (cs : List (Option X)) (v : List (Sight R)) (ps : List (IProg R)), (∀ p ∈ ps, p.Bursts b b) →
      (A.trialTree S t n cs v ps).Asks (b * n) := by
  intro n
  induction n with
  | zero => intros; trivial
  | succ n ih =>
    intro cs v ps hps
    rw [Nat.mul_succ]
    have hadd : ∀ cs (p : IProg R), p.Bursts b b → (A.trialTree S t n cs v (ps ++ [p])).Asks (b * n + b) := fun cs p hp =>
      (ih cs v _ fun q hq => (List.mem_append.mp hq).elim (hps q) fun h => List.mem_singleton.mp h ▸ hp).mono (by omega)
    simp only [Spy.trialTree]
    cases A.move n v with
    | stop => trivial
    | begin x => exact hadd _ _ (hS x)
    | other p => exact hadd _ _ (IProg.bursts_lift (Nat.le_refl b) _)
    | step j =>
      dsimp only
      cases hj : ps[j]? with
      | none => exact (ih cs v ps hps).mono (by omega)
      | some p =>
        have hset : ∀ v (q : IProg R), q.Bursts b b → (A.trialTree S t n cs v (ps.set j q)).Asks (b * n) := fun v q hq =>
          ih _ _ _ fun x hx => (List.mem_or_eq_of_mem_set hx).elim (hps x) fun h => h ▸ hq
        refine IProg.bursts_tree (fun q hc hq => ?_) p (Nat.le_refl b) (hps p (List.mem_of_getElem? hj))
        cases hn : q.next with
        | inl o =>
          simp only
          split
          · trivial
          · exact hset _ _ hq
        | inr x =>
          obtain ⟨e, k⟩ := x
          simp only
          split
          · trivial
          have hk : ∀ r, (k r).Bursts b b := by
            cases q with
            | op e' k' =>
              cases hn
              cases e with
              | rand n => exact hc.elim
              | _ => exact hq
            | _ => cases hn
          exact hset _ _ (hk _)

theorem bursts_unwrapAttack {X R F : Type} (P : Prims) {S : X → IProg R} (t : Terms X R F) {b : Nat} (hS : ∀ x, (S x).Bursts b b)
    (A : Spy X R) (n : Nat) : (unwrapAttack P S t A n).Asks (b * n) :=
  asks_toUnwrap P _ _ (bursts_trial A t hS n [] [] [] (by simp))

theorem bursts_forgeAttack {X R F : Type} (P : Prims) {S : X → IProg R} (t : Terms X R F) {b : Nat} (hS : ∀ x, (S x).Bursts b b)
    (A : Spy X R) (n : Nat) : (forgeAttack P S t A n).Asks (b * n) :=
  fun kek => asks_toForge P kek _ _ (bursts_trial A t hS n [] [] [] (by simp))

end D1
