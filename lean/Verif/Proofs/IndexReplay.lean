import Verif.Proofs.IndexRely
/-!
# The secure index against a replaying provider
-/
namespace D1
open Spec Prog

section
variable {P : Prims} (L : P.Laws) {i : SecureIndex} (hk : i.indexKey.length = 32)

/-- Every record ever written for a keyword in `K` is a node with an identifier in `A` and a counter above its own, at most `B`. -/
def Genuine (P : Prims) (i : SecureIndex) (K : List GoString) (N : Nat) (A : GoString → GoString → Prop) (B : Nat) (h : Hist) : Prop :=
  ∀ kw ∈ K, ∀ c ≤ N, ∀ b, h (ixLabel P i kw c) dtNode b →
    ∃ x c', readNode P i kw c (.ok b) = .ok ⟨x, c'⟩ ∧ c < c' ∧ c' ≤ B ∧ A kw x

theorem Genuine.mono {K : List GoString} {N B B' : Nat} {A : GoString → GoString → Prop} {h : Hist} (hg : Genuine P i K N A B h) (hb : B ≤ B') :
    Genuine P i K N A B' h := fun kw hkw c hc b hh =>
  let ⟨x, c', h1, h2, h3, h4⟩ := hg kw hkw c hc b hh
  ⟨x, c', h1, h2, by omega, h4⟩

include L in
/-- Another genuine record. -/
theorem Genuine.add {K : List GoString} {N B : Nat} (hN : N < 2 ^ 64) {A : GoString → GoString → Prop} (ha : Apart P i K N) {h : Hist}
    (hg : Genuine P i K N A B h) (hB : B ≤ N) {kw : GoString} (hkw : kw ∈ K) {c : Nat} (hc : c ≤ N) (n : Node) (hn : c < n.nextCounter)
    (hn' : n.nextCounter ≤ B) (hx : A kw (sanitize n.identifier)) (k : BytesN 32) (nn : BytesN 12) :
    Genuine P i K N A B (h.add (ixLabel P i kw c) dtNode (nodeRec P i kw c n k nn)) := by
  intro kw' hkw' c' hc' b hb
  rcases hb with hb | ⟨h1, -, rfl⟩
  · exact hg kw' hkw' c' hc' b hb
  · obtain ⟨rfl, rfl⟩ := ha kw' hkw' kw hkw c' hc' c hc h1
    exact ⟨_, _, readNode_rec L _ _ _ _ _ (by omega), hn, hn', hx⟩

/-- The rules for calls against a replaying provider; the ghost state is the largest counter. -/
def replayRules (P : Prims) (i : SecureIndex) (K : List GoString) (N : Nat) (A : GoString → GoString → Prop) : Rules Nat Hist where
  step := ReplayStep
  inv B h := B ≤ N ∧ Genuine P i K N A B h
  rely B _ B' _ := B ≤ B'
  refl _ _ := Nat.le_refl _
  trans h h' := Nat.le_trans h h'
  budget B := N - B

/-- The errors of a provider that fails. -/
def ixFailed (e : Err) : Prop := ∃ x, e = .io x

/-- How a call may end. -/
def RepOut (A : GoString → GoString → Prop) : IxCall → Outcome IxRes → Prop
  | .add _ _ _, .ok r => r = .unit
  | .add _ _ _, .err e => ixRefused e ∨ ixFailed e ∨ e = .nodeAlreadyExists
  | .search _ kw, .ok r => ∃ l, r = .ids l ∧ ∀ x ∈ l, A kw x
  | .search _ _, .err e => ixRefused e ∨ ixFailed e
  | .delete _ _ _, .ok r => r = .unit
  | .delete _ _ _, .err e => ixRefused e ∨ ixFailed e ∨ e = .nodeNotFound
  | .delete _ _ _, .diverge => True
  | _, _ => False

def repLin (A : GoString → GoString → Prop) (c : IxCall) (B : Nat) (o : Outcome IxRes) (B' : Nat) : Prop := B ≤ B' ∧ B' ≤ B + 1 ∧ RepOut A c o

variable {K : List GoString} {N : Nat} {A : GoString → GoString → Prop}

/-- A call that is about to go on or to end. -/
def Fine (P : Prims) (i : SecureIndex) (K : List GoString) (N : Nat) (A : GoString → GoString → Prop) (c : IxCall) (p : Prog IxRes) (B : Nat)
    (h : Hist) : Prop :=
  match p.outcome with
  | none => Rg (replayRules P i K N A) (repLin A c) p B h
  | some o => RepOut A c o

theorem rg_op {c : IxCall} {e : Eff} {k : e.Resp → Prog IxRes} {B : Nat} {h : Hist}
    (hs : ∀ B' ≥ B, B' < N → ∀ h', Genuine P i K N A B' h' → ∀ r h'', ReplayStep h' e r h'' →
      Genuine P i K N A B' h'' ∧ Fine P i K N A c (k r) B' h'') : Rg (replayRules P i K N A) (repLin A c) (.op e k) B h := by
  intro B' h' h1 h2 h3 r h'' h4
  have hB : B' < N := by simp only [replayRules] at h3; omega
  obtain ⟨g1, g2⟩ := hs B' h1 hB h' h2.2 r h'' h4
  simp only [Fine] at g2
  revert g2
  cases ho : (k r).outcome with
  | none => exact fun g2 => ⟨⟨h2.1, g1⟩, Nat.le_refl _, trivial, g2⟩
  | some o => exact fun g2 => ⟨B', ⟨Nat.le_refl _, Nat.le_succ _, g2⟩, ⟨h2.1, g1⟩, Nat.le_refl _, trivial, Nat.le_succ _⟩

theorem fine_op {c : IxCall} {e : Eff} {k : e.Resp → Prog IxRes} {B : Nat} {h : Hist}
    (hs : ∀ B' ≥ B, B' < N → ∀ h', Genuine P i K N A B' h' → ∀ r h'', ReplayStep h' e r h'' →
      Genuine P i K N A B' h'' ∧ Fine P i K N A c (k r) B' h'') : Fine P i K N A c (.op e k) B h := rg_op hs

/-- What a read can give. -/
theorem replay_read {kw : GoString} (hkw : kw ∈ K) {n : Nat} (hn : n ≤ N) {B : Nat} {h h' : Hist} (hg : Genuine P i K N A B h)
    {r : Except IoErr Bytes} (hst : ReplayStep h (.get (ixLabel P i kw n) dtNode) r h') : h = h' ∧
    ((∃ x c', readNode P i kw n r = .ok ⟨x, c'⟩ ∧ n < c' ∧ c' ≤ B ∧ A kw x) ∨ readNode P i kw n r = .error .nodeNotFound ∨
      ∃ e, readNode P i kw n r = .error (.io e)) := by
  obtain ⟨h1, h2⟩ := hst
  refine ⟨h1.symm, ?_⟩
  cases r with
  | error e => cases e <;> simp [readNode, onNotFound]
  | ok b => exact .inl (hg kw hkw n hn b (h2 b rfl))

include L in
theorem fine_search {t kw : GoString} (hkw : kw ∈ K) (fuel : Nat) (x : GoString) (acc : List GoString) (hacc : ∀ y ∈ acc, A kw y) (n B : Nat)
    (h : Hist) (hn : n ≤ B) (hB : n ≤ N) (hf : N < fuel + n) :
    Fine P i K N A (.search t kw) ((searchLoop P (ixTagger P i kw) (ixCryptor P i kw) fuel ⟨x, n⟩ acc).bind fun l => .ret (.ids l)) B h := by
  induction fuel generalizing x acc n B h with
  | zero => omega
  | succ fuel ih =>
    rw [searchLoop, getNextNode_attempt L, op_bind]
    refine fine_op fun B' hB' hBN h' hg r h'' hst => ?_
    obtain ⟨rfl, hr⟩ := replay_read hkw hB hg hst
    refine ⟨hg, ?_⟩
    rcases hr with ⟨y, c', hr, h1, h2, h3⟩ | hr | ⟨e, hr⟩
    · simp only [hr]
      exact ih y (acc ++ [y]) (fun z hz => by
        rcases List.mem_append.mp hz with hz | hz
        · exact hacc z hz
        · rw [List.mem_singleton.mp hz]; exact h3) c' B' h' h2 (by omega) (by omega)
    · simp only [hr]
      exact ⟨acc, rfl, hacc⟩
    · simp only [hr]
      exact .inr ⟨e, rfl⟩

include L in
theorem fine_addEnd (hN : N < 2 ^ 64) (ha : Apart P i K N) {t kw id : GoString} (hkw : kw ∈ K) (hid : A kw (sanitize id)) (n B : Nat) (h : Hist)
    (hn : n ≤ B) (hnN : n ≤ N) :
    Fine P i K N A (.add t kw id) ((((⟨id, (n + 1) % 2 ^ 64⟩ : Node).seal P (ixLabel P i kw n) (ixCryptor P i kw)).bind fun sn =>
        ioPut (onAlreadyExists .nodeAlreadyExists) (ixLabel P i kw n) dtNode sn.toJ.render).bind fun _ => .ret .unit) B h := by
  rw [node_seal_eq L, Prog.bind_assoc, Prog.bind_assoc, randBytes, op_bind]
  refine fine_op fun B1 hB1 hBN h1 hg r h1' hst => ?_
  obtain rfl := hst
  refine ⟨hg, ?_⟩
  cases r with
  | none => exact .inl (.inr (.inr rfl))
  | some k =>
    simp only [ret_bind]
    rw [randBytes]
    simp only [Prog.bind_assoc, op_bind]
    refine fine_op fun B2 hB2 hBN2 h2 hg2 r h2' hst => ?_
    obtain rfl := hst
    refine ⟨hg2, ?_⟩
    cases r with
    | none => exact .inl (.inr (.inr rfl))
    | some nn =>
      simp only [ret_bind, ioPut, op_bind]
      -- the last effect: the largest counter may grow
      intro B3 h3 g1 g2 g3 r h3' g4
      have hB : B3 < N := by simp only [replayRules] at g3; omega
      have g1' : B2 ≤ B3 := g1
      have hs : h3' = h3.add (ixLabel P i kw n) dtNode (nodeRec P i kw n ⟨id, (n + 1) % 2 ^ 64⟩ k nn) := g4
      have hmod : (n + 1) % 2 ^ 64 = n + 1 := Nat.mod_eq_of_lt (by omega)
      have hgen : Genuine P i K N A (B3 + 1) h3' := by
        rw [hs]
        refine (g2.2.mono (Nat.le_succ _)).add L hN ha (by omega) hkw hnN _ ?_ ?_ hid k nn
        · simp only [hmod]; omega
        · simp only [hmod]; omega
      have fin : ∀ o, RepOut A (.add t kw id) o → ∃ s'', repLin A (.add t kw id) B3 o s'' ∧ (replayRules P i K N A).inv s'' h3' ∧
          (replayRules P i K N A).rely B3 h3 s'' h3' ∧ (replayRules P i K N A).guar h3 h3' ∧
          (replayRules P i K N A).budget B3 ≤ (replayRules P i K N A).budget s'' + 1 :=
        fun o ho => ⟨B3 + 1, ⟨Nat.le_succ _, Nat.le_refl _, ho⟩, ⟨hB, hgen⟩, Nat.le_succ _, trivial, by simp only [replayRules]; omega⟩
      cases r with
      | ok u => exact fin (.ok .unit) rfl
      | error e =>
        refine fin (.err _) ?_
        cases e with
        | alreadyExists => exact .inr (.inr rfl)
        | notFound => exact .inr (.inl ⟨_, rfl⟩)
        | failure => exact .inr (.inl ⟨_, rfl⟩)

include L in
theorem fine_add (hN : N < 2 ^ 64) (ha : Apart P i K N) {t kw id : GoString} (hkw : kw ∈ K) (hid : A kw (sanitize id)) (fuel : Nat) (x : GoString)
    (n B : Nat) (h : Hist) (hn : n ≤ B) (hnN : n ≤ N) (hf : N < fuel + n) :
    Fine P i K N A (.add t kw id) ((((getLastNodeLoop P (ixTagger P i kw) (ixCryptor P i kw) fuel ⟨x, n⟩).bind fun last =>
        ((⟨id, (last.nextCounter + 1) % 2 ^ 64⟩ : Node).seal P (ixLabel P i kw last.nextCounter) (ixCryptor P i kw)).bind fun sn =>
        ioPut (onAlreadyExists .nodeAlreadyExists) (ixLabel P i kw last.nextCounter) dtNode sn.toJ.render)).bind fun _ => .ret .unit) B h := by
  induction fuel generalizing x n B h with
  | zero => omega
  | succ fuel ih =>
    rw [getLastNodeLoop, getNextNode_attempt L, op_bind, op_bind]
    refine fine_op fun B' hB' hBN h' hg r h'' hst => ?_
    obtain ⟨rfl, hr⟩ := replay_read hkw hnN hg hst
    refine ⟨hg, ?_⟩
    rcases hr with ⟨y, c', hr, h1, h2, h3⟩ | hr | ⟨e, hr⟩
    · simp only [hr]
      exact ih y c' B' h' h2 (by omega) (by omega)
    · simp only [hr, ret_bind]
      exact fine_addEnd L hN ha hkw hid n B' h' (by omega) hnN
    · simp only [hr]
      exact .inr (.inl ⟨e, rfl⟩)

include L in
theorem fine_delete (hN : N < 2 ^ 64) (ha : Apart P i K N) {t kw id : GoString} (hkw : kw ∈ K) (hA : ∀ y, A kw y → A kw (sanitize y)) (fuel : Nat)
    (x : GoString) (n B : Nat) (h : Hist) (hn : n ≤ B) (hnN : n ≤ N) :
    Fine P i K N A (.delete t kw id)
      ((deleteLoop P (ixTagger P i kw) (ixCryptor P i kw) id fuel ⟨x, n⟩).bind fun _ => .ret .unit) B h := by
  induction fuel generalizing x n B h with
  | zero => exact trivial
  | succ fuel ih =>
    rw [deleteLoop, getNextNode_attempt L, op_bind]
    refine fine_op fun B' hB' hBN h' hg r h'' hst => ?_
    obtain ⟨rfl, hr⟩ := replay_read hkw hnN hg hst
    refine ⟨hg, ?_⟩
    rcases hr with ⟨y, c', hr, h1, h2, h3⟩ | hr | ⟨e, hr⟩
    · simp only [hr]
      split
      · -- delete it
        simp only [bind_eq, nextLabel_eq L, ofPanic_some, ret_bind, deleteNode]
        rw [getNextNode_attempt L, op_bind, op_bind]
        refine fine_op fun B1 hB1 hBN1 h1' hg1 r1 h1'' hst1 => ?_
        obtain ⟨rfl, hr1⟩ := replay_read hkw (show c' ≤ N by omega) hg1 hst1
        refine ⟨hg1, ?_⟩
        rcases hr1 with ⟨z, c2, hr1, f1, f2, f3⟩ | hr1 | ⟨e, hr1⟩
        · simp only [hr1]
          rw [node_seal_eq L]
          simp only [Prog.bind_assoc, ret_bind]
          rw [randBytes, op_bind]
          refine fine_op fun B2 hB2 hBN2 h2' hg2 r2 h2'' hst2 => ?_
          obtain rfl := hst2
          refine ⟨hg2, ?_⟩
          cases r2 with
          | none => exact .inl (.inr (.inr rfl))
          | some k =>
            simp only [ret_bind]
            rw [randBytes, op_bind]
            refine fine_op fun B3 hB3 hBN3 h3' hg3 r3 h3'' hst3 => ?_
            obtain rfl := hst3
            refine ⟨hg3, ?_⟩
            cases r3 with
            | none => exact .inl (.inr (.inr rfl))
            | some nn =>
              simp only [ret_bind, putSealedNode, if_true, ioUpdate, op_bind]
              refine fine_op fun B4 hB4 hBN4 h4' hg4 r4 h4'' hst4 => ?_
              have hs : h4'' = h4'.add (ixLabel P i kw n) dtNode (nodeRec P i kw n ⟨z, c2⟩ k nn) := hst4
              refine ⟨by
                rw [hs]
                exact hg4.add L hN ha (by omega) hkw hnN _ (by simp only; omega) (by simp only; omega) (hA z f3) k nn, ?_⟩
              cases r4 with
              | error e =>
                cases e with
                | notFound => exact .inr (.inr rfl)
                | alreadyExists => exact .inr (.inl ⟨_, rfl⟩)
                | failure => exact .inr (.inl ⟨_, rfl⟩)
              | ok u =>
                simp only [ret_bind, deleteSealedNode, ioDelete, op_bind]
                refine fine_op fun B5 hB5 hBN5 h5' hg5 r5 h5'' hst5 => ?_
                obtain rfl := hst5
                refine ⟨hg5, ?_⟩
                cases r5 with
                | error e => exact .inr (.inl ⟨_, rfl⟩)
                | ok u => simp only [ret_bind]; exact ih x n B5 _ (by omega) hnN
        · simp only [hr1, deleteSealedNode, ioDelete, op_bind]
          refine fine_op fun B5 hB5 hBN5 h5' hg5 r5 h5'' hst5 => ?_
          obtain rfl := hst5
          refine ⟨hg5, ?_⟩
          cases r5 with
          | error e => exact .inr (.inl ⟨_, rfl⟩)
          | ok u => simp only [ret_bind]; exact ih x n B5 _ (by omega) hnN
        · simp only [hr1]
          exact .inr (.inl ⟨e, rfl⟩)
      · exact ih y c' B' h' h2 (by omega)
    · simp only [hr]
      exact rfl
    · simp only [hr]
      exact .inr (.inl ⟨e, rfl⟩)

/-- Which calls a set of identifiers covers. -/
def AddsIn (A : GoString → GoString → Prop) : IxCall → Prop
  | .add _ kw id => A kw (sanitize id)
  | _ => True

include L hk in
/-- A call that has not started. -/
theorem rg_ixProg_replay (hi : IxIdp i) (hN : N < 2 ^ 64) (ha : Apart P i K N) (hA : ∀ kw y, A kw y → A kw (sanitize y)) {fuel : Nat}
    (hfuel : N < fuel) (c : IxCall) (hc : c.keyword ∈ K) (hg : AddsIn A c) (B : Nat) (h : Hist) :
    Rg (replayRules P i K N A) (repLin A c) (ixProg P i fuel c) B h := by
  rw [ixProg_eq L hk]
  have hop : ∀ a : Unit, ∃ e k, ixBody P i fuel c = .op e k := by
    intro a
    obtain ⟨f, rfl⟩ : ∃ f, fuel = f + 1 := ⟨fuel - 1, by omega⟩
    cases c with
    | add t kw id =>
      rw [ixBody, addBody, getLastNode, getLastNodeLoop, getNextNode_attempt L, op_bind, op_bind]
      exact ⟨_, _, rfl⟩
    | search t kw =>
      rw [ixBody, searchLoop, getNextNode_attempt L, op_bind]
      exact ⟨_, _, rfl⟩
    | delete t kw id =>
      rw [ixBody, deleteLoop, getNextNode_attempt L, op_bind]
      exact ⟨_, _, rfl⟩
  refine Rg.bind_frame (Q := fun e => ∀ x, e.target ≠ some (x, dtNode)) ?_ ?_ ?_ hop ?_ ?_
  · intro e he B h r h' h1 h2
    refine ⟨⟨h1.1, fun kw hkw n hn b hb => h1.2 kw hkw n hn b ?_⟩, Nat.le_refl _, trivial⟩
    cases e with
    | put id dt d =>
      have : h' = h.add id dt d := h2
      rw [this] at hb
      rcases hb with hb | ⟨rfl, hd, -⟩
      · exact hb
      · exact absurd (by rw [hd]; rfl) (he (ixLabel P i kw n))
    | update id dt d =>
      have : h' = h.add id dt d := h2
      rw [this] at hb
      rcases hb with hb | ⟨rfl, hd, -⟩
      · exact hb
      · exact absurd (by rw [hd]; rfl) (he (ixLabel P i kw n))
    | get id dt => have : h' = h := h2.1; rw [this] at hb; exact hb
    | delete id dt => have : h' = h := h2; rw [this] at hb; exact hb
    | rand n => have : h' = h := h2; rw [this] at hb; exact hb
    | now => have : h' = h := h2; rw [this] at hb; exact hb
  · refine AllEff.attempt (hi c.token).1 fun r => ?_
    cases r with
    | error e => trivial
    | ok y => simp only; split <;> trivial
  · refine returns_attempt (hi c.token).2 (fun a _ => ?_) (fun e => trivial)
    simp only; split <;> trivial
  · intro B e
    refine AllOut.attempt (hi c.token).2 (fun y _ => ?_) (fun e' _ => ?_) (fun h => h.elim) (fun h => h.elim)
    · simp only
      split
      · rintro ⟨⟩
        refine ⟨Nat.le_refl _, Nat.le_succ _, ?_⟩
        cases c <;> exact .inl (.inr (.inl rfl))
      · rintro ⟨⟩
    · rintro ⟨⟩
      refine ⟨Nat.le_refl _, Nat.le_succ _, ?_⟩
      cases c <;> exact .inl (.inl rfl)
  · intro a B' h' _
    have hfine : Fine P i K N A c (ixBody P i fuel c) B' h' := by
      cases c with
      | add t kw id => exact fine_add L hN ha hc hg fuel [] 0 B' h' (Nat.zero_le _) (Nat.zero_le _) (by omega)
      | search t kw => exact fine_search L hc fuel [] [] (by simp) 0 B' h' (Nat.zero_le _) (Nat.zero_le _) (by omega)
      | delete t kw id => exact fine_delete L hN ha hc (hA kw) fuel [] 0 B' h' (Nat.zero_le _) (Nat.zero_le _)
    obtain ⟨e, k, hek⟩ := hop ()
    rw [hek] at hfine ⊢
    exact hfine

end
end D1
