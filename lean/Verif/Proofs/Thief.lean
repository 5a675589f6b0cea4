import Verif.Proofs.Passwords
/-!
# The game about passwords as a tree
-/
namespace D1
open Prog Spec

/-! ## Programs that do not know passwords -/

/-- `ret m true` also returns the password that the program made. -/
inductive HProg (M : Type) where
  | ret (m : M) (kept : Bool)
  | err (e : Err)
  | panic
  | diverge
  | op (e : Eff) (k : e.Resp → HProg M)
  | ask (q : HAsk) (k : q.Ans → HProg M)

namespace HProg
variable {M β : Type}

/-- Go on after a program. -/
def after : Prog β → (β → HProg M) → HProg M
  | .ret a, k => k a
  | .err e, _ => err e
  | .panic, _ => panic
  | .diverge, _ => diverge
  | .op e c, k => op e fun r => after (c r) k

def tree : HProg M → (HProg M → HAdv) → HAdv
  | op (.rand n) k, K => .toss n fun b => (k (some b : Option (BytesN n))).tree K
  | ask q k, K => .ask q fun r => (k r).tree K
  | p, K => K p

def next : HProg M → Outcome (M × Bool) ⊕ ((e : Eff) × (e.Resp → HProg M))
  | ret a b => .inl (.ok (a, b))
  | err e => .inl (.err e)
  | panic => .inl .panic
  | diverge => .inl .diverge
  | op e k => .inr ⟨e, k⟩
  | ask _ _ => .inl .diverge

/-- A program with nothing left to draw or to ask. -/
def Calm : HProg M → Prop
  | op (.rand _) _ => False
  | ask _ _ => False
  | _ => True

end HProg

/-- Whether the password of program `j` is kept. -/
def keptIn {M : Type} (j : Nat) : Outcome (M × Bool) → List Nat
  | .ok (_, true) => [j]
  | _ => []

open Classical in
noncomputable def Thief.tree {M : Type} (A : Thief M) (P : Prims) (S : Nat → DirCall → Option Nat → HProg M) :
    Nat → List (Option DirCall) → List Nat → List (Glimpse M) → List (HProg M) → HAdv
  | 0, _, _, _, _ => .done false
  | n + 1, cs, kept, v, ps =>
    match A.move n v with
    | .stop => .done false
    | .order c none => A.tree P S n (cs ++ [some c]) kept v (ps ++ [S ps.length c none])
    | .order c (some i) =>
      if i ∈ kept then A.tree P S n (cs ++ [none]) kept v (ps ++ [S ps.length c (some i)]) else A.tree P S n cs kept v ps
    | .other p => A.tree P S n (cs ++ [none]) kept v (ps ++ [HProg.after p fun m => .ret m false])
    | .reveal i =>
      if i ∈ kept then .ask (.reveal i) fun (p : GoString) => A.tree P S n cs kept (v ++ [.told i p]) ps else A.tree P S n cs kept v ps
    | .step j =>
      match ps[j]? with
      | none => A.tree P S n cs kept v ps
      | some p => p.tree fun q =>
        match q.next with
        | .inl o => if (∃ r, o = .ok r) ∧ Stolen P cs v j then .done true
          else A.tree P S n cs (keptIn j o ++ kept) (v ++ [.result j (overt o)]) (ps.set j q)
        | .inr ⟨e, k⟩ => A.tree P S n cs kept (v ++ [.request j ⟨e, A.answer v e⟩]) (ps.set j (k (A.answer v e)))

/-! ## The tree plays the game -/

def Src.In (ω : Tape) : Src → Prop
  | .read _ => True
  | .made i _ => ∃ b, ω i = some b

/-- Other programs than `j` may have made passwords. -/
def Grows (j : Nat) (ω ω' : Tape) : Prop := ω' j = ω j ∧ ∀ i b, ω i = some b → ω' i = some b

theorem Grows.refl (j : Nat) (ω : Tape) : Grows j ω ω := ⟨rfl, fun _ _ => id⟩

theorem Grows.trans {j : Nat} {ω ω' ω'' : Tape} (h : Grows j ω ω') (h' : Grows j ω' ω'') : Grows j ω ω'' :=
  ⟨h'.1.trans h.1, fun i b hb => h'.2 i b (h.2 i b hb)⟩

theorem Src.In.mono {ω ω' : Tape} (h : ∀ i b, ω i = some b → ω' i = some b) {x : Src} (hx : x.In ω) : x.In ω' := by
  cases x with
  | read h => trivial
  | made i salt => obtain ⟨b, hb⟩ := hx; exact ⟨b, h i b hb⟩

theorem Src.In.at_eq {P : Prims} {ω ω' : Tape} (h : ∀ i b, ω i = some b → ω' i = some b) {x : Src} (hx : x.In ω) :
    x.at P ω' = x.at P ω := by
  cases x with
  | read h => rfl
  | made i salt => obtain ⟨b, hb⟩ := hx; simp only [Src.at, hb, h i b hb]

theorem SUser.at_eq {P : Prims} {ω ω' : Tape} (h : ∀ i b, ω i = some b → ω' i = some b) {u : SUser} (hx : u.src.In ω) :
    u.at P ω' = u.at P ω := by rw [SUser.at, SUser.at, hx.at_eq h]

/-- The random source does not fail. -/
def Drawn : (e : Eff) → e.Resp → Prop
  | .rand _, r => r ≠ none
  | _, _ => True

/-- What was read. -/
def readAt (P : Prims) (ω : Tape) : Except Err SUser → Except Err User
  | .error e => .error e
  | .ok u => .ok (u.at P ω)

section
variable {M : Type}

/-- Program `j` does the same as a program that knows the passwords. -/
def Sim (P : Prims) (j : Nat) : HProg M → Tape → IProg (M × Option GoString) → Prop
  | .ret m kept, ω, q => (kept = true → ∃ b, ω j = some b) ∧ q = .ret (m, if kept then (ω j).map passwordText else none)
  | .err e, _, q => q = .err e
  | .panic, _, q => q = .panic
  | .diverge, _, q => q = .diverge
  | .op e k, ω, q => ∃ k', q = .op e k' ∧ ∀ ω', Grows j ω ω' → ∀ r, Drawn e r → Sim P j (k r) ω' (k' r)
  | .ask (.issue i) k, ω, q => i = j ∧ ω j = none ∧ ∃ k' : Option (BytesN passwordLength) → _, q = .op (.rand passwordLength) k' ∧
      ∀ ω', Grows j ω ω' → ∀ b, Sim P j (k ()) (Function.update ω' j (some b)) (k' (some b))
  | .ask (.reveal _) _, _, _ => False
  | .ask (.test w h) k, ω, q => ∀ ω', Grows j ω ω' → Sim P j (k (comparePassword P (w.at ω') (h.at P ω').bytes)) ω' q
  | .ask (.seal u aad) k, ω, q => u.src.In ω ∧ ∃ k', q = .box (u.at P ω).toJ aad k' ∧
      ∀ ω', Grows j ω ω' → ∀ r, Sim P j (k r) ω' (k' r)
  | .ask (.open aad w c) k, ω, q => ∃ k', q = .unbox aad w c k' ∧ ∀ ω', Grows j ω ω' → ∀ a r, (∀ u, a = .ok u → u.src.In ω') →
      readAs User.ofJ r = readAt P ω' a → Sim P j (k a) ω' (k' r)

theorem Sim.mono {P : Prims} {j : Nat} {p : HProg M} {ω ω' : Tape} {q : IProg (M × Option GoString)} (h : Sim P j p ω q)
    (hg : Grows j ω ω') : Sim P j p ω' q := by
  cases p with
  | ret m kept => rw [Sim, hg.1]; exact h
  | op e k => obtain ⟨k', rfl, hk⟩ := h; exact ⟨k', rfl, fun ω'' hg' => hk ω'' (hg.trans hg')⟩
  | ask x k =>
    cases x with
    | issue i => obtain ⟨hi, hn, k', rfl, hk⟩ := h; exact ⟨hi, hg.1.trans hn, k', rfl, fun ω'' hg' => hk ω'' (hg.trans hg')⟩
    | reveal i => exact h.elim
    | test w x => exact fun ω'' hg' => h ω'' (hg.trans hg')
    | «seal» u aad =>
      obtain ⟨hu, k', rfl, hk⟩ := h
      exact ⟨hu.mono hg.2, k', by rw [SUser.at_eq hg.2 hu], fun ω'' hg' => hk ω'' (hg.trans hg')⟩
    | «open» aad w c => obtain ⟨k', rfl, hk⟩ := h; exact ⟨k', rfl, fun ω'' hg' => hk ω'' (hg.trans hg')⟩
  | _ => exact h

theorem sim_after {P : Prims} {j : Nat} {β : Type} (p : Prog β) {k : β → HProg M} {k' : β → IProg (M × Option GoString)} {ω : Tape}
    (h : ∀ a ω', Grows j ω ω' → Sim P j (k a) ω' (k' a)) : Sim P j (HProg.after p k) ω (IProg.after p k') := by
  induction p generalizing ω with
  | ret a => exact h a ω (.refl j ω)
  | op e c ih => exact ⟨_, rfl, fun ω' hg r _ => ih r fun a ω'' hg' => h a ω'' (hg.trans hg')⟩
  | _ => rfl

/-- The boxes that were made. -/
structure MadeRecs (P : Prims) (kek : BytesN 32) (ω : Tape) (T : List (IRec (BytesN 32))) (T' : List SRec) : Prop where
  true : TrueRecs P kek T
  same : SameKeys T T'
  made : ∀ e ∈ T', e.u.src.In ω ∧ unboxed P kek.1 e.aad e.w e.c = .ok (some (e.u.at P ω).toJ.san)

theorem MadeRecs.mono {P : Prims} {kek : BytesN 32} {ω ω' : Tape} {T : List (IRec (BytesN 32))} {T' : List SRec}
    (h : MadeRecs P kek ω T T') (hg : ∀ i b, ω i = some b → ω' i = some b) : MadeRecs P kek ω' T T' :=
  ⟨h.true, h.same, fun e he => ⟨(h.made e he).1.mono hg, by rw [SUser.at_eq hg (h.made e he).1]; exact (h.made e he).2⟩⟩

/-- Only program `j` made a password. -/
def Turn (j : Nat) (ω ω' : Tape) : Prop := (∀ i, i ≠ j → ω' i = ω i) ∧ ∀ i b, ω i = some b → ω' i = some b

theorem play_htree {P : Prims} (L : P.Laws) (kek : BytesN 32) (j : Nat) (ω0 : Tape) (K : HProg M → HAdv)
    (F : Prog (M × Option GoString) → PMF Bool)
    (hK : ∀ (p : HProg M) q ω T T', p.Calm → Turn j ω0 ω → Sim P j p ω q → MadeRecs P kek ω T T' →
      (toBoxes P (K p) ω T').play (boxTrue P kek) T = F (q.expand P kek)) (p : HProg M) :
    ∀ q ω T T', Turn j ω0 ω → Sim P j p ω q → MadeRecs P kek ω T T' →
      (toBoxes P (p.tree K) ω T').play (boxTrue P kek) T = (settle (q.expand P kek)).bind F := by
  induction p with
  | ret m kept =>
    intro q ω T T' ht h hT
    refine (hK (.ret m kept) q ω T T' trivial ht h hT).trans ?_
    rw [h.2]
    simp only [IProg.expand, settle, PMF.pure_bind]
  | err e =>
    intro q ω T T' ht h hT
    refine (hK (.err e) q ω T T' trivial ht h hT).trans ?_
    rw [show q = .err e from h]
    simp only [IProg.expand, settle, PMF.pure_bind]
  | panic =>
    intro q ω T T' ht h hT
    refine (hK .panic q ω T T' trivial ht h hT).trans ?_
    rw [show q = .panic from h]
    simp only [IProg.expand, settle, PMF.pure_bind]
  | diverge =>
    intro q ω T T' ht h hT
    refine (hK .diverge q ω T T' trivial ht h hT).trans ?_
    rw [show q = .diverge from h]
    simp only [IProg.expand, settle, PMF.pure_bind]
  | op e k ih =>
    intro q ω T T' ht h hT
    obtain ⟨k', rfl, hk⟩ := id h
    cases e with
    | rand n =>
      simp only [HProg.tree, toBoxes, OAdv.play, IProg.expand, settle, PMF.bind_bind]
      congr 1; funext b
      exact ih _ _ ω T T' ht (hk ω (.refl j ω) (some b) nofun) hT
    | _ =>
      refine (hK (.op _ k) _ ω T T' trivial ht h hT).trans ?_
      simp only [IProg.expand, settle, PMF.pure_bind]
  | ask x k ih =>
    intro q ω T T' ht h hT
    cases x with
    | issue i =>
      obtain ⟨rfl, hn, k', rfl, hk⟩ := h
      simp only [HProg.tree, toBoxes, OAdv.play, IProg.expand, settle, PMF.bind_bind]
      congr 1; funext b
      have hg : ∀ l c, ω l = some c → Function.update ω i (some b) l = some c := fun l c hl => by
        rw [Function.update_of_ne (fun h : l = i => by rw [h, hn] at hl; exact nomatch hl), hl]
      exact ih () _ _ T T' ⟨fun l hl => by rw [Function.update_of_ne hl, ht.1 l hl], fun l c hl => hg l c (ht.2 l c hl)⟩
        (hk ω (.refl _ ω) b) (hT.mono hg)
    | reveal i => exact h.elim
    | test w x => exact ih _ q ω T T' ht (h ω (.refl j ω)) hT
    | «seal» u aad =>
      obtain ⟨hu, k', rfl, hk⟩ := h
      simp only [HProg.tree, toBoxes, OAdv.play, IProg.expand, boxTrue, randBytes, Prog.bind, settle, PMF.bind_bind, PMF.pure_bind]
      congr 1; funext key; congr 1; funext nonce
      refine ih _ _ ω _ _ ht (hk ω (.refl j ω) _) ⟨fun e he => ?_, hT.same.cons .., fun e he => ?_⟩
      · rcases List.mem_cons.mp he with rfl | he
        · exact unboxed_box L kek key nonce aad _
        · exact hT.true e he
      · rcases List.mem_cons.mp he with rfl | he
        · exact ⟨hu, unboxed_box L kek key nonce aad _⟩
        · exact hT.made e he
    | «open» aad w c =>
      obtain ⟨k', rfl, hk⟩ := h
      simp only [HProg.tree, toBoxes, IProg.expand]
      cases hm : madeBy T' aad w c with
      | some u =>
        obtain ⟨e, he, rfl, rfl, rfl, rfl⟩ := madeBy_spec hm
        obtain ⟨h1, h2⟩ := hT.made e he
        rw [h2]
        refine ih _ _ ω T T' ht (hk ω (.refl j ω) (.ok e.u.san) _ (fun u hu => ?_) ?_) hT
        · cases hu; exact h1
        · simp only [readAs, Option.bind_some, SUser.ofJ_at, readAt]
      | none =>
        simp only [OAdv.play, boxTrue, PMF.pure_bind, hT.same.unmade hm]
        refine ih _ _ ω T T' ht (hk ω (.refl j ω) _ _ (fun u hu => ?_) ?_) hT
        · cases hr : readAs User.ofJ (unboxed P kek.1 aad w c) with
          | error e => rw [hr] at hu; exact nomatch hu
          | ok a => rw [hr] at hu; cases hu; trivial
        · cases readAs User.ofJ (unboxed P kek.1 aad w c) <;> rfl

theorem hnext_sim {P : Prims} (kek : BytesN 32) {j : Nat} {p : HProg M} {ω : Tape} {q : IProg (M × Option GoString)} (hc : p.Calm)
    (h : Sim P j p ω q) : (∃ o o', p.next = .inl o ∧ nextStep (q.expand P kek) = .inl o' ∧ overt o' = overt o ∧
        ((∃ r, o' = .ok r) ↔ ∃ r, o = .ok r) ∧ keptBy j o' = (keptIn j o).map (fun i => (i, (Word.made i).at ω)) ∧
        ∀ i ∈ keptIn j o, ∃ b, ω i = some b) ∨
      ∃ (e : Eff) (k : e.Resp → HProg M) (k' : e.Resp → IProg (M × Option GoString)), p.next = .inr ⟨e, k⟩ ∧ nextStep (q.expand P kek) = .inr ⟨e, fun r => (k' r).expand P kek⟩ ∧
        ∀ r, Sim P j (k r) ω (k' r) := by
  cases p with
  | ret m kept =>
    obtain ⟨h1, rfl⟩ := h
    refine .inl ⟨_, _, rfl, rfl, rfl, ⟨fun _ => ⟨_, rfl⟩, fun _ => ⟨_, rfl⟩⟩, ?_, ?_⟩
    · cases kept with
      | false => rfl
      | true =>
        obtain ⟨b, hb⟩ := h1 rfl
        simp only [if_true, hb, Option.map_some, keptBy, keptIn, List.map_cons, List.map_nil, Word.at, Option.getD_some]
    · cases kept with
      | false => nofun
      | true => intro i hi; rw [List.mem_singleton.mp hi]; exact h1 rfl
  | err e => rw [show q = .err e from h]; exact .inl ⟨_, _, rfl, rfl, rfl, ⟨nofun, nofun⟩, rfl, nofun⟩
  | panic => rw [show q = .panic from h]; exact .inl ⟨_, _, rfl, rfl, rfl, ⟨nofun, nofun⟩, rfl, nofun⟩
  | diverge => rw [show q = .diverge from h]; exact .inl ⟨_, _, rfl, rfl, rfl, ⟨nofun, nofun⟩, rfl, nofun⟩
  | op e k =>
    obtain ⟨k', rfl, hk⟩ := h
    refine .inr ⟨e, k, k', rfl, rfl, fun r => hk ω (.refl j ω) r ?_⟩
    cases e <;> first | exact hc.elim | trivial
  | ask x k => exact hc.elim

theorem lookup_words {ω : Tape} {kept : List Nat} (i : Nat) :
    (kept.map fun i => (i, (Word.made i).at ω)).lookup i = if i ∈ kept then some ((Word.made i).at ω) else none := by
  induction kept with
  | nil => rfl
  | cons a kept ih =>
    rw [List.map_cons, List.lookup_cons]
    by_cases h : i = a
    · subst h; simp
    · have : (i == a) = false := by simpa using h
      simp only [this, ih, List.mem_cons, h, false_or]

/-- The passwords that are kept do not change. -/
theorem words_eq {ω ω' : Tape} (hg : ∀ i b, ω i = some b → ω' i = some b) {kept : List Nat} (hk : ∀ i ∈ kept, ∃ b, ω i = some b) :
    (kept.map fun i => (i, (Word.made i).at ω')) = kept.map fun i => (i, (Word.made i).at ω) := by
  refine List.map_congr_left fun i hi => ?_
  obtain ⟨b, hb⟩ := hk i hi
  simp only [Word.at, hb, hg i b hb]

theorem play_thief {P : Prims} (L : P.Laws) (A : Thief M) (S : Nat → DirCall → Option Nat → HProg M)
    (I : DirCall → IProg (M × Option GoString)) (kek : BytesN 32)
    (hS : ∀ j c ω, ω j = none → Sim P j (S j c none) ω (I c) ∧
      ∀ i, (∃ b, ω i = some b) → Sim P j (S j c (some i)) ω (I (withPassword ((Word.made i).at ω) c))) (n : Nat) :
    ∀ (cs : List (Option DirCall)) (kept : List Nat) (v : List (Glimpse M)) (ps : List (HProg M)) (qs : List (IProg (M × Option GoString)))
      (ω : Tape) (T : List (IRec (BytesN 32))) (T' : List SRec), ps.length = qs.length →
      (∀ j p q, ps[j]? = some p → qs[j]? = some q → Sim P j p ω q) → (∀ i ∈ kept, ∃ b, ω i = some b) →
      (∀ i, ps.length ≤ i → ω i = none) → MadeRecs P kek ω T T' →
      (toBoxes P (A.tree P S n cs kept v ps) ω T').play (boxTrue P kek) T =
        A.play P (fun c => (I c).expand P kek) n cs (kept.map fun i => (i, (Word.made i).at ω)) v (qs.map (·.expand P kek)) := by
  induction n with
  | zero => intros; rfl
  | succ n ih =>
    intro cs kept v ps qs ω T T' hl hs hk hf hT
    have hadd : ∀ cs (p : HProg M) q, Sim P ps.length p ω q →
        (toBoxes P (A.tree P S n cs kept v (ps ++ [p])) ω T').play (boxTrue P kek) T =
          A.play P (fun c => (I c).expand P kek) n cs (kept.map fun i => (i, (Word.made i).at ω)) v
            (qs.map (·.expand P kek) ++ [q.expand P kek]) := by
      intro cs p q hpq
      rw [ih cs kept v (ps ++ [p]) (qs ++ [q]) ω T T' (by simp [hl]) ?_ hk (fun i hi => hf i (by simp at hi; omega)) hT, List.map_append,
        List.map_singleton]
      intro j p' q' hp hq
      rcases Nat.lt_trichotomy j ps.length with h | h | h
      · rw [List.getElem?_append_left h] at hp
        rw [List.getElem?_append_left (hl ▸ h)] at hq
        exact hs j p' q' hp hq
      · subst h
        simp only [List.getElem?_concat_length, Option.some.injEq] at hp
        rw [hl, List.getElem?_concat_length, Option.some.injEq] at hq
        subst hp hq
        exact hpq
      · rw [List.getElem?_eq_none (by simp; omega)] at hp
        exact nomatch hp
    have h0 : ω ps.length = none := hf _ (Nat.le_refl _)
    cases hm : A.move n v with
    | stop => simp only [Thief.tree, Thief.play, hm, toBoxes, OAdv.play]
    | order c source =>
      cases source with
      | none =>
        simp only [Thief.tree, Thief.play, hm]
        exact hadd _ _ _ (hS _ c ω h0).1
      | some i =>
        simp only [Thief.tree, Thief.play, hm, lookup_words]
        by_cases hi : i ∈ kept
        · simp only [if_pos hi]
          exact hadd _ _ _ ((hS _ c ω h0).2 i (hk i hi))
        · simp only [if_neg hi]
          exact ih cs kept v ps qs ω T T' hl hs hk hf hT
    | other p =>
      simp only [Thief.tree, Thief.play, hm]
      rw [hadd _ _ (IProg.after p fun m => .ret (m, none)) (sim_after p (k := fun m => .ret m false) fun a ω' _ => ⟨nofun, rfl⟩), IProg.expand_after]
      rfl
    | reveal i =>
      simp only [Thief.tree, Thief.play, hm, lookup_words]
      by_cases hi : i ∈ kept
      · simp only [if_pos hi, toBoxes]
        exact ih cs kept _ ps qs ω T T' hl hs hk hf hT
      · simp only [if_neg hi]
        exact ih cs kept v ps qs ω T T' hl hs hk hf hT
    | step j =>
      simp only [Thief.tree, Thief.play, hm, List.getElem?_map]
      cases hj : ps[j]? with
      | none =>
        have : qs[j]? = none := by
          rw [List.getElem?_eq_none_iff] at hj ⊢
          omega
        simp only [this, Option.map_none]
        exact ih cs kept v ps qs ω T T' hl hs hk hf hT
      | some p =>
        have hjl := (List.getElem?_eq_some_iff.mp hj).1
        obtain ⟨q, hq⟩ : ∃ q, qs[j]? = some q := ⟨qs[j], List.getElem?_eq_getElem (hl ▸ hjl)⟩
        simp only [hq, Option.map_some]
        refine play_htree L kek j ω _ _ (fun p' q' ω' T T' hc ht hsim hT => ?_) p q ω T T' ⟨fun _ _ => rfl, fun _ _ => id⟩
          (hs j p q hj hq) hT
        have hset : ∀ (kept' : List Nat) v' (p'' : HProg M) q'', Sim P j p'' ω' q'' → (∀ i ∈ kept', ∃ b, ω' i = some b) →
            (toBoxes P (A.tree P S n cs (kept' ++ kept) v' (ps.set j p'')) ω' T').play (boxTrue P kek) T =
              A.play P (fun c => (I c).expand P kek) n cs ((kept'.map fun i => (i, (Word.made i).at ω')) ++
                kept.map fun i => (i, (Word.made i).at ω)) v' ((qs.map (·.expand P kek)).set j (q''.expand P kek)) := by
          intro kept' v' p'' q'' hpq hk'
          rw [ih cs (kept' ++ kept) v' (ps.set j p'') (qs.set j q'') ω' T T' (by simp [hl]) ?_ ?_ ?_ hT, List.map_append, List.map_set,
            words_eq ht.2 hk]
          · intro i p1 q1 h1 h2
            by_cases hij : j = i
            · subst hij
              rw [List.getElem?_set_self hjl] at h1
              rw [List.getElem?_set_self (hl ▸ hjl)] at h2
              cases h1; cases h2
              exact hpq
            · rw [List.getElem?_set_ne hij] at h1 h2
              exact (hs i p1 q1 h1 h2).mono ⟨ht.1 i (Ne.symm hij), ht.2⟩
          · intro i hi
            rcases List.mem_append.mp hi with hi | hi
            · exact hk' i hi
            · obtain ⟨b, hb⟩ := hk i hi
              exact ⟨b, ht.2 i b hb⟩
          · intro i hi
            rw [List.length_set] at hi
            rw [ht.1 i (by omega), hf i hi]
        rcases hnext_sim kek hc hsim with ⟨o, o', h1, h2, h3, h4, h5, h6⟩ | ⟨e, k, k', h1, h2, h3⟩
        · simp only [h1, h2, h3, h5]
          by_cases hw : (∃ r, o = .ok r) ∧ Stolen P cs v j
          · rw [if_pos hw, if_pos ⟨h4.mpr hw.1, hw.2⟩]
            rfl
          · rw [if_neg hw, if_neg fun h => hw ⟨h4.mp h.1, h.2⟩]
            exact hset _ _ _ _ hsim h6
        · simp only [h1, h2]
          exact hset [] _ _ _ (h3 _) nofun

/-! ## The tree wins only with a password that it does not know -/

/-- Program `j` compares only its own password, and succeeds only if the comparison did. -/
def Sound (j : Nat) (own : Option GoString) : Bool → Bool → HProg M → Prop
  | passed, _, .ret _ _ => own ≠ none → passed = true
  | passed, fresh, .op _ k => ∀ r, Sound j own passed fresh (k r)
  | passed, fresh, .ask (.issue i) k => i = j ∧ fresh = true ∧ Sound j own passed false (k ())
  | _, _, .ask (.reveal _) _ => False
  | passed, fresh, .ask (.test w h) k => (∀ x, h ≠ .read x) ∧ (∀ p, own = some p → w = .known p) ∧ Sound j own passed fresh (k none) ∧
      Sound j own passed fresh (k (some false)) ∧ Sound j own true fresh (k (some true))
  | passed, fresh, .ask (.seal u _) k => (∀ x, u.src ≠ .read x) ∧ ∀ r, Sound j own passed fresh (k r)
  | passed, fresh, .ask (.open _ _ _) k => (∀ e, Sound j own passed fresh (k (.error e))) ∧
      ∀ u, (∀ x, u.src ≠ .read x) → Sound j own passed fresh (k (.ok u))
  | _, _, _ => True

theorem sound_after {j : Nat} {own : Option GoString} {passed fresh : Bool} {β : Type} (p : Prog β) {k : β → HProg M}
    (h : ∀ a, Sound j own passed fresh (k a)) : Sound j own passed fresh (HProg.after p k) := by
  induction p with
  | ret a => exact h a
  | op e c ih => exact fun r => ih r
  | _ => trivial

/-- A password that was told has the same hash. -/
def Legit (P : Prims) (v : List (Glimpse M)) (p : GoString) : Prop := ∃ i q, .told i q ∈ v ∧ Rivals P p q

theorem safe_htree {P : Prims} (j : Nat) (own : Option GoString) (D0 : List Nat) (ω : Tape) (v : List (Glimpse M))
    (hv : ∀ i b, ω i = some b → .told i (passwordText b) ∈ v) (K : HProg M → HAdv)
    (hK : ∀ (p : HProg M) passed fresh D T, p.Calm → Sound j own passed fresh p → (D = D0 ∨ D = j :: D0) →
      (fresh = true → j ∉ D ∧ ω j = none) → (passed = true → ∀ p, own = some p → Legit P v p) → (∀ e ∈ T, ∀ x, e.u.src ≠ .read x) →
      Harmless P (K p) D ω T) (p : HProg M) :
    ∀ passed fresh D T, Sound j own passed fresh p → (D = D0 ∧ fresh = true ∨ fresh = false ∧ (D = D0 ∨ D = j :: D0)) →
      (fresh = true → j ∉ D ∧ ω j = none) → (passed = true → ∀ p, own = some p → Legit P v p) → (∀ e ∈ T, ∀ x, e.u.src ≠ .read x) →
      Harmless P (p.tree K) D ω T := by
  have hD' : ∀ {D : List Nat} {fresh : Bool}, (D = D0 ∧ fresh = true ∨ fresh = false ∧ (D = D0 ∨ D = j :: D0)) →
      D = D0 ∨ D = j :: D0 := fun h => h.elim (fun h => .inl h.1) fun h => h.2
  induction p with
  | ret m kept => intro passed fresh D T h hD hf hp hT; exact hK (.ret m kept) passed fresh D T trivial h (hD' hD) hf hp hT
  | err e => intro passed fresh D T h hD hf hp hT; exact hK (.err e) passed fresh D T trivial h (hD' hD) hf hp hT
  | panic => intro passed fresh D T h hD hf hp hT; exact hK .panic passed fresh D T trivial h (hD' hD) hf hp hT
  | diverge => intro passed fresh D T h hD hf hp hT; exact hK .diverge passed fresh D T trivial h (hD' hD) hf hp hT
  | op e k ih =>
    intro passed fresh D T h hD hf hp hT
    cases e with
    | rand n => exact fun b => ih _ passed fresh D T (h _) hD hf hp hT
    | _ => exact hK (.op _ k) passed fresh D T trivial h (hD' hD) hf hp hT
  | ask x k ih =>
    intro passed fresh D T h hD hf hp hT
    cases x with
    | issue i =>
      obtain ⟨rfl, rfl, h⟩ := h
      obtain ⟨h1, h2⟩ := hf rfl
      refine ⟨h1, h2, ih () passed false (i :: D) T h (.inr ⟨rfl, .inr ?_⟩) nofun hp hT⟩
      rcases hD with h | h
      · rw [h.1]
      · exact nomatch h.1
    | reveal i => exact h.elim
    | test w x =>
      obtain ⟨hx, hw, h1, h2, h3⟩ := h
      refine ⟨hx, ?_⟩
      cases hb : blindly P D ω w x with
      | none => exact ih _ passed fresh D T h1 hD hf hp hT
      | some b =>
        cases b with
        | false => exact ih _ passed fresh D T h2 hD hf hp hT
        | true =>
          refine ih _ true fresh D T h3 hD hf (fun _ p hown => ?_) hT
          obtain rfl := hw p hown
          cases x with
          | read x => exact (hx x rfl).elim
          | made i salt =>
            rw [blindly] at hb
            split at hb
            · simp at hb
            · split at hb
              · next h => obtain ⟨a, _, ha⟩ := h; exact nomatch ha
              · simp only [Src.at, Word.at] at hb
                cases hi : ω i with
                | none => rw [hi] at hb; exact nomatch hb
                | some b =>
                  rw [hi, Option.map_some] at hb
                  replace hb := (compare_made P p (passwordText b) salt).symm.trans hb
                  exact ⟨i, _, hv i b hi, salt.1, by simpa using hb⟩
    | «seal» u aad =>
      obtain ⟨hu, h⟩ := h
      refine fun r => ih r passed fresh D _ (h r) hD hf hp fun e he => ?_
      rcases List.mem_cons.mp he with rfl | he
      · exact hu
      · exact hT e he
    | «open» aad w c =>
      simp only [HProg.tree, Harmless]
      cases hm : madeBy T aad w c with
      | some u =>
        obtain ⟨e, he, -, -, -, rfl⟩ := madeBy_spec hm
        exact ih _ passed fresh D T (h.2 _ (hT e he)) hD hf hp hT
      | none => exact fun e => ih _ passed fresh D T (h.1 e) hD hf hp hT

/-- The password of its own that call `j` was ordered with. -/
def ownWord (cs : List (Option DirCall)) (j : Nat) : Option GoString := (cs[j]?.bind id).bind passwordOf

theorem safe_thief {P : Prims} (A : Thief M) (S : Nat → DirCall → Option Nat → HProg M)
    (hS : ∀ j c, Sound j (passwordOf c) false true (S j c none) ∧ ∀ i, Sound j none false true (S j c (some i))) (n : Nat) :
    ∀ (cs : List (Option DirCall)) (kept : List Nat) (v : List (Glimpse M)) (ps : List (HProg M)) (D : List Nat) (ω : Tape)
      (T : List SRec), cs.length = ps.length →
      (∀ j p, ps[j]? = some p → ∃ passed fresh, Sound j (ownWord cs j) passed fresh p ∧ (fresh = true → j ∉ D ∧ ω j = none) ∧
        (passed = true → ∀ p, ownWord cs j = some p → Legit P v p)) →
      (∀ i, ps.length ≤ i → i ∉ D ∧ ω i = none) → (∀ i b, ω i = some b → .told i (passwordText b) ∈ v) →
      (∀ e ∈ T, ∀ x, e.u.src ≠ .read x) → Harmless P (A.tree P S n cs kept v ps) D ω T := by
  induction n with
  | zero => intros; exact rfl
  | succ n ih =>
    intro cs kept v ps D ω T hl hs hf hv hT
    have hadd : ∀ c p, Sound ps.length (c.bind passwordOf) false true p → Harmless P (A.tree P S n (cs ++ [c]) kept v (ps ++ [p])) D ω T := by
      intro c p hp
      have hown : ∀ j, j < ps.length → ownWord (cs ++ [c]) j = ownWord cs j := fun j hj => by
        rw [ownWord, List.getElem?_append_left (hl ▸ hj), ownWord]
      refine ih _ kept v _ D ω T (by simp [hl]) ?_ (fun i hi => hf i (by simp at hi; omega)) hv hT
      intro j p' hp'
      rcases Nat.lt_trichotomy j ps.length with h | h | h
      · rw [List.getElem?_append_left h] at hp'
        rw [hown j h]
        exact hs j p' hp'
      · subst h
        simp only [List.getElem?_concat_length, Option.some.injEq] at hp'
        subst hp'
        refine ⟨false, true, ?_, fun _ => hf _ (Nat.le_refl _), nofun⟩
        rw [ownWord, ← hl, List.getElem?_concat_length, hl]
        exact hp
      · rw [List.getElem?_eq_none (by simp; omega)] at hp'
        exact nomatch hp'
    have hskip : Harmless P (A.tree P S n cs kept v ps) D ω T := ih cs kept v ps D ω T hl hs hf hv hT
    have hleg : ∀ {v v' : List (Glimpse M)} {p}, (∀ x ∈ v, x ∈ v') → Legit P v p → Legit P v' p := by
      rintro v v' p h ⟨i, q, h1, h2⟩
      exact ⟨i, q, h _ h1, h2⟩
    cases hm : A.move n v with
    | stop => simp only [Thief.tree, hm]; exact rfl
    | order c source =>
      cases source with
      | none => simp only [Thief.tree, hm]; exact hadd (some c) _ (hS _ c).1
      | some i =>
        simp only [Thief.tree, hm]
        split
        · exact hadd none _ ((hS _ c).2 i)
        · exact hskip
    | other p => simp only [Thief.tree, hm]; exact hadd none _ (sound_after p fun _ h => (h rfl).elim)
    | reveal i =>
      simp only [Thief.tree, hm]
      split
      · simp only [Harmless]
        have hsub : ∀ q, ∀ x ∈ v, x ∈ v ++ [Glimpse.told i q] := fun q x hx => List.mem_append_left _ hx
        by_cases hi : i ∈ D
        · rw [if_pos hi]
          intro b
          refine ih cs kept _ ps (D.erase i) _ T hl (fun j p hp => ?_) (fun l hl' => ?_) (fun l c hl' => ?_) hT
          · obtain ⟨passed, fresh, h1, h2, h3⟩ := hs j p hp
            refine ⟨passed, fresh, h1, fun h => ?_, fun h p hp => hleg (hsub _) (h3 h p hp)⟩
            have hji : j ≠ i := fun e => (h2 h).1 (e ▸ hi)
            exact ⟨fun hj => (h2 h).1 (List.mem_of_mem_erase hj), by rw [Function.update_of_ne hji]; exact (h2 h).2⟩
          · have hli : l ≠ i := fun e => (hf l hl').1 (e ▸ hi)
            exact ⟨fun hj => (hf l hl').1 (List.mem_of_mem_erase hj), by rw [Function.update_of_ne hli]; exact (hf l hl').2⟩
          · by_cases hli : l = i
            · subst hli
              rw [Function.update_self] at hl'
              cases hl'
              exact List.mem_append_right _ (.head _)
            · rw [Function.update_of_ne hli] at hl'
              exact hsub _ _ (hv l c hl')
        · rw [if_neg hi]
          refine ih cs kept _ ps D ω T hl (fun j p hp => ?_) hf (fun l c hl' => hsub _ _ (hv l c hl')) hT
          obtain ⟨passed, fresh, h1, h2, h3⟩ := hs j p hp
          exact ⟨passed, fresh, h1, h2, fun h p hp => hleg (hsub _) (h3 h p hp)⟩
      · exact hskip
    | step j =>
      simp only [Thief.tree, hm]
      cases hj : ps[j]? with
      | none => exact hskip
      | some p =>
        have hjl := (List.getElem?_eq_some_iff.mp hj).1
        obtain ⟨passed, fresh, h1, h2, h3⟩ := hs j p hj
        refine safe_htree j (ownWord cs j) D ω v hv _ (fun p' passed fresh D' T hc h1 hD' h2 h3 hT => ?_) p passed fresh D T h1 ?_ h2 h3 hT
        · have hset : ∀ kept v' p'', Sound j (ownWord cs j) passed fresh p'' → (∀ x ∈ v, x ∈ v') →
              Harmless P (A.tree P S n cs kept v' (ps.set j p'')) D' ω T := by
            intro kept v' p'' hp'' hsub
            have hD'' : ∀ i, i ≠ j → i ∉ D → i ∉ D' := by
              rintro i hi h
              rcases hD' with rfl | rfl
              · exact h
              · exact fun hm => (List.mem_cons.mp hm).elim hi h
            refine ih cs kept v' _ D' ω T (by simp [hl]) (fun i p1 hp1 => ?_) (fun i hi => ?_) (fun i b hb => hsub _ (hv i b hb)) hT
            · by_cases hij : j = i
              · subst hij
                rw [List.getElem?_set_self hjl] at hp1
                cases hp1
                exact ⟨passed, fresh, hp'', h2, fun h p hp => hleg hsub (h3 h p hp)⟩
              · rw [List.getElem?_set_ne hij] at hp1
                obtain ⟨passed, fresh, h1, h2, h3⟩ := hs i p1 hp1
                exact ⟨passed, fresh, h1, fun h => ⟨hD'' i (Ne.symm hij) (h2 h).1, (h2 h).2⟩, fun h p hp => hleg hsub (h3 h p hp)⟩
            · rw [List.length_set] at hi
              exact ⟨hD'' i (by omega) (hf i hi).1, (hf i hi).2⟩
          cases hn : p'.next with
          | inl o =>
            simp only
            rw [if_neg ?_]
            · exact hset _ _ _ h1 fun x hx => List.mem_append_left _ hx
            · rintro ⟨⟨r, rfl⟩, c, p, hc1, hc2, hno⟩
              have hown : ownWord cs j = some p := by rw [ownWord, hc1]; exact hc2
              obtain ⟨m, kept, rfl⟩ : ∃ m kept, p' = .ret m kept := by
                cases p' with
                | ret m kept => exact ⟨m, kept, rfl⟩
                | _ => exact nomatch hn
              obtain ⟨i, q, ht, hr⟩ := h3 (h1 (by rw [hown]; exact nofun)) p hown
              exact hno i q ht hr
          | inr x =>
            obtain ⟨e, k⟩ := x
            obtain rfl : p' = .op e k := by
              cases p' with
              | op e' k' => simp only [HProg.next, Sum.inr.injEq, Sigma.mk.injEq] at hn; obtain ⟨rfl, hk⟩ := hn; rw [eq_of_heq hk]
              | _ => exact nomatch hn
            exact hset _ _ _ (h1 _) fun x hx => List.mem_append_left _ hx
        · cases fresh with
          | true => exact .inl ⟨rfl, rfl⟩
          | false => exact .inr ⟨rfl, .inl rfl⟩

end

/-! ## How many questions are asked -/

/-- Questions that cost at most `n`. -/
def Costs (f : HAsk → Nat) : Nat → HAdv → Prop
  | _, .done _ => True
  | n, .toss _ k => ∀ x, Costs f n (k x)
  | n, .ask q k => f q ≤ n ∧ ∀ r, Costs f (n - f q) (k r)

theorem Costs.mono {f : HAsk → Nat} {t : HAdv} : ∀ {m n : Nat}, Costs f m t → m ≤ n → Costs f n t := by
  induction t with
  | done b => intros; trivial
  | toss l k ih => intro m n h hmn x; exact ih x (h x) hmn
  | ask q k ih => intro m n h hmn; exact ⟨h.1.trans hmn, fun r => ih r (h.2 r) (by omega)⟩

def testCost : HAsk → Nat
  | .test _ _ => 1
  | _ => 0

def sealCost : HAsk → Nat
  | .seal _ _ => 1
  | _ => 0

def boxCost : HAsk → Nat
  | .seal _ _ => 1
  | .open _ _ _ => 1
  | _ => 0

theorem tests_of_costs (t : HAdv) : ∀ {n : Nat}, Costs testCost n t → Tests n t := by
  induction t with
  | done b => intro n _; cases n <;> trivial
  | toss l k ih => intro n h; cases n <;> exact fun x => ih x (h x)
  | ask q k ih =>
    intro n h
    cases q with
    | test w x =>
      cases n with
      | zero => exact absurd h.1 (Nat.not_succ_le_zero 0)
      | succ n => exact fun r => ih r (h.2 r)
    | _ => cases n <;> exact fun r => ih r (h.2 r)

theorem asks_toBoxes (P : Prims) (t : HAdv) : ∀ {n : Nat} ω T, Costs boxCost n t → (toBoxes P t ω T).Asks n := by
  induction t with
  | done b => intro n ω T _; cases n <;> trivial
  | toss l k ih => intro n ω T h; cases n <;> exact fun x => ih x ω T (h x)
  | ask q k ih =>
    intro n ω T h
    cases q with
    | issue j => cases n <;> exact fun b => ih _ _ T (h.2 _)
    | reveal j => exact ih _ ω T (h.2 _)
    | test w x => exact ih _ ω T (h.2 _)
    | «seal» u aad =>
      cases n with
      | zero => exact absurd h.1 (Nat.not_succ_le_zero 0)
      | succ n => exact fun r => ih _ ω _ (h.2 _)
    | «open» aad w c =>
      cases n with
      | zero => exact absurd h.1 (Nat.not_succ_le_zero 0)
      | succ n =>
        simp only [toBoxes]
        split
        · exact (ih _ ω T (h.2 _)).mono (by simp [boxCost])
        · exact fun r => ih _ ω T (h.2 _)

theorem asks_toBlank (P : Prims) (kek : BytesN 32) (t : HAdv) : ∀ {n : Nat} ω T, Costs sealCost n t → (toBlank P kek t ω T).Asks n := by
  induction t with
  | done b => intro n ω T _; cases n <;> trivial
  | toss l k ih => intro n ω T h; cases n <;> exact fun x => ih x ω T (h x)
  | ask q k ih =>
    intro n ω T h
    cases q with
    | issue j => cases n <;> exact fun b => ih _ _ T (h.2 _)
    | reveal j => exact ih _ ω T (h.2 _)
    | test w x => exact ih _ ω T (h.2 _)
    | «seal» u aad =>
      cases n with
      | zero => exact absurd h.1 (Nat.not_succ_le_zero 0)
      | succ n =>
        intro r
        cases n <;> exact fun other => ih _ ω _ (h.2 _)
    | «open» aad w c =>
      simp only [toBlank]
      split
      · exact ih _ ω T (h.2 _)
      · exact ih _ ω T (h.2 _)

namespace HProg
variable {M : Type}

/-- Questions that cost at most `n` before the next request, and at most `b` between requests. -/
def Bursts (f : HAsk → Nat) (b : Nat) : Nat → HProg M → Prop
  | n, op (.rand _) k => ∀ r, (k r).Bursts f b n
  | _, op _ k => ∀ r, (k r).Bursts f b b
  | n, ask q k => f q ≤ n ∧ ∀ r, (k r).Bursts f b (n - f q)
  | _, _ => True

theorem Bursts.mono {f : HAsk → Nat} {b n m : Nat} (hnm : n ≤ m) {p : HProg M} (h : p.Bursts f b n) : p.Bursts f b m := by
  induction p generalizing n m with
  | op e k ih =>
    cases e with
    | rand l => exact fun r => ih r hnm (h r)
    | _ => exact h
  | ask q k ih => exact ⟨h.1.trans hnm, fun r => ih r (by omega) (h.2 r)⟩
  | _ => trivial

theorem bursts_after {β : Type} {f : HAsk → Nat} {b n : Nat} (hn : n ≤ b) {k : β → HProg M} (p : Prog β)
    (hk : ∀ a, (k a).Bursts f b n) : (after p k).Bursts f b n := by
  induction p generalizing n with
  | op e c ih =>
    cases e with
    | rand l => exact fun r => ih r hn hk
    | _ => exact fun r => ih r (Nat.le_refl b) fun a => (hk a).mono hn
  | ret a => exact hk a
  | _ => trivial

theorem costs_tree {f : HAsk → Nat} {b c : Nat} {K : HProg M → HAdv} (hK : ∀ p : HProg M, p.Calm → p.Bursts f b b → Costs f c (K p))
    (p : HProg M) : ∀ {m : Nat}, m ≤ b → p.Bursts f b m → Costs f (c + m) (p.tree K) := by
  induction p with
  | op e k ih =>
    intro m hm h
    cases e with
    | rand n => exact fun b => ih _ hm (h _)
    | _ => exact (hK (.op _ k) trivial (h.mono hm)).mono (by omega)
  | ask q k ih =>
    intro m hm h
    refine ⟨h.1.trans (by omega), fun r => ?_⟩
    rw [Nat.add_sub_assoc h.1]
    exact ih r (by omega) (h.2 r)
  | ret a b => intro m hm h; exact (hK (.ret a b) trivial (h.mono hm)).mono (by omega)
  | err e => intro m hm h; exact (hK (.err e) trivial (h.mono hm)).mono (by omega)
  | panic => intro m hm h; exact (hK (.panic) trivial (h.mono hm)).mono (by omega)
  | diverge => intro m hm h; exact (hK (.diverge) trivial (h.mono hm)).mono (by omega)

end HProg

theorem costs_thief {M : Type} {f : HAsk → Nat} (hf : ∀ i, f (.reveal i) = 0) (P : Prims) (A : Thief M)
    {S : Nat → DirCall → Option Nat → HProg M} {b : Nat} (hS : ∀ j c i, (S j c i).Bursts f b b) :
    ∀ (n : Nat) (cs : List (Option DirCall)) (kept : List Nat) (v : List (Glimpse M)) (ps : List (HProg M)), (∀ p ∈ ps, p.Bursts f b b) →
      Costs f (b * n) (A.tree P S n cs kept v ps) := by
  intro n
  induction n with
  | zero => intros; trivial
  | succ n ih =>
    intro cs kept v ps hps
    rw [Nat.mul_succ]
    have hadd : ∀ cs (p : HProg M), p.Bursts f b b → Costs f (b * n + b) (A.tree P S n cs kept v (ps ++ [p])) := fun cs p hp =>
      (ih cs kept v _ fun q hq => (List.mem_append.mp hq).elim (hps q) fun h => List.mem_singleton.mp h ▸ hp).mono (by omega)
    have hskip : ∀ v, Costs f (b * n + b) (A.tree P S n cs kept v ps) := fun v => (ih cs kept v ps hps).mono (by omega)
    simp only [Thief.tree]
    cases A.move n v with
    | stop => trivial
    | order c source =>
      cases source with
      | none => exact hadd _ _ (hS _ _ _)
      | some i =>
        dsimp only
        split
        · exact hadd _ _ (hS _ _ _)
        · exact hskip v
    | other p => exact hadd _ _ (HProg.bursts_after (Nat.le_refl b) _ fun _ => trivial)
    | reveal i =>
      dsimp only
      split
      · exact ⟨by rw [hf]; exact Nat.zero_le _, fun r => by rw [hf]; exact hskip _⟩
      · exact hskip v
    | step j =>
      dsimp only
      cases hj : ps[j]? with
      | none => exact hskip v
      | some p =>
        have hset : ∀ kept v (q : HProg M), q.Bursts f b b → Costs f (b * n) (A.tree P S n cs kept v (ps.set j q)) := fun kept v q hq =>
          ih _ _ _ _ fun x hx => (List.mem_or_eq_of_mem_set hx).elim (hps x) fun h => h ▸ hq
        refine HProg.costs_tree (fun q hc hq => ?_) p (Nat.le_refl b) (hps p (List.mem_of_getElem? hj))
        cases hn : q.next with
        | inl o =>
          simp only
          split
          · trivial
          · exact hset _ _ _ hq
        | inr x =>
          obtain ⟨e, k⟩ := x
          simp only
          have hk : ∀ r, (k r).Bursts f b b := by
            cases q with
            | op e' k' =>
              cases hn
              cases e with
              | rand n => exact hc.elim
              | _ => exact hq
            | _ => cases hn
          exact hset _ _ _ (hk _)

/-! ## The bound -/

/-- The tree that plays the game from the beginning. -/
noncomputable def theftTree {M : Type} (P : Prims) (S : Nat → DirCall → Option Nat → HProg M) (A : Thief M) (n : Nat) : HAdv :=
  A.tree P S n [] [] [] []

/-- The attack on the key wrapping that a thief amounts to. -/
noncomputable def theftUnwrap {M : Type} (P : Prims) (S : Nat → DirCall → Option Nat → HProg M) (A : Thief M) (n : Nat) :
    OAdv WrapAsk WrapAsk.Ans :=
  toUnwrap P (toBoxes P (theftTree P S A n) (fun _ => none) []) []

/-- The forger that a thief amounts to. -/
noncomputable def theftForge {M : Type} (P : Prims) (S : Nat → DirCall → Option Nat → HProg M) (A : Thief M) (n : Nat) :
    OAdv ForgeAsk ForgeAsk.Ans :=
  .toss 32 fun kek => toForge P kek (toBoxes P (theftTree P S A n) (fun _ => none) []) []

/-- The attack on the encryption that a thief amounts to. -/
noncomputable def theftSeal {M : Type} (P : Prims) (S : Nat → DirCall → Option Nat → HProg M) (A : Thief M) (n : Nat) :
    OAdv SealAsk SealAsk.Ans :=
  .toss 32 fun kek => toBlank P kek (theftTree P S A n) (fun _ => none) []

theorem theft_chance {M : Type} {P : Prims} (L : P.Laws) {δ : ℝ} (hδ : ∀ p salt, luck P p salt ≤ δ)
    {S : Nat → DirCall → Option Nat → HProg M} {I : DirCall → IProg (M × Option GoString)}
    (hI : ∀ j c ω, ω j = none → Sim P j (S j c none) ω (I c) ∧
      ∀ i, (∃ b, ω i = some b) → Sim P j (S j c (some i)) ω (I (withPassword ((Word.made i).at ω) c)))
    (hS : ∀ j c, Sound j (passwordOf c) false true (S j c none) ∧ ∀ i, Sound j none false true (S j c (some i)))
    (hb : ∀ j c i, (S j c i).Bursts testCost 1 1) (A : Thief M) (n : Nat) :
    chance (thiefGame P (fun kek c => (I c).expand P kek) A n) ≤
      wrapGap P (theftUnwrap P S A n) + forgeGap P (theftForge P S A n) + sealGap P (theftSeal P S A n) + n * δ := by
  have h0 : 0 ≤ δ := ENNReal.toReal_nonneg.trans (hδ [] [])
  have h1 : thiefGame P (fun kek c => (I c).expand P kek) A n =
      (unif 32).bind fun kek => (theftUnwrap P S A n).play (wrapReal P kek) () := by
    simp only [thiefGame, theftUnwrap, play_toUnwrap L]
    congr 1; funext kek
    exact (play_thief L A S I kek hI n [] [] [] [] [] _ [] [] rfl (by simp) (by simp) (fun _ _ => rfl)
      ⟨fun e he => by simp at he, rfl, by simp⟩).symm
  have h2 : (theftForge P S A n).play (forgeOracle P true) [] =
      (unif 32).bind fun kek => (theftUnwrap P S A n).play (wrapIdeal P kek) [] := by
    simp only [theftForge, theftUnwrap, OAdv.play, play_toForge L _ _ [] [] [] .nil]
    congr 1; funext kek
    exact (play_toUnwrap_ideal L kek _ []).symm
  have h3 : (theftForge P S A n).play (forgeOracle P false) [] = (theftSeal P S A n).play (sealOracle P false) [] := by
    simp only [theftForge, theftSeal, OAdv.play, play_toForge_shut L _ _ [] [] [] .nil]
    congr 1; funext kek
    exact (play_toBlank L kek _ _ [] [] [] rfl).symm
  have h4 : chance ((theftSeal P S A n).play (sealOracle P true) []) ≤ n * δ := by
    simp only [theftSeal, OAdv.play]
    refine chance_bind_le _ _ (fun kek _ => ?_) (mul_nonneg (Nat.cast_nonneg n) h0)
    have := safe_chance L hδ h0 kek (theftTree P S A n) n [] (fun _ => none) [] [] .nil
      (safe_thief A S hS n [] [] [] [] [] _ [] rfl (by simp) (by simp) (by simp) (by simp))
      (tests_of_costs _ (by simpa [theftTree] using costs_thief (fun _ => rfl) P A hb n [] [] [] [] (by simp)))
    simpa only [tapes, PMF.pure_bind] using this
  simp only [wrapGap, forgeGap, sealGap, gap, ← h1, ← h2, h3]
  have h5 := le_abs_self (chance (thiefGame P (fun kek c => (I c).expand P kek) A n) -
    chance ((theftForge P S A n).play (forgeOracle P true) []))
  have h6 := le_abs_self (chance ((theftForge P S A n).play (forgeOracle P true) []) -
    chance ((theftSeal P S A n).play (sealOracle P false) []))
  have h7 := le_abs_self (chance ((theftSeal P S A n).play (sealOracle P false) []) -
    chance ((theftSeal P S A n).play (sealOracle P true) []))
  linarith

end D1
