import Verif.Proofs.Spy
/-!
# One key is enough

An attack on AES-GCM with many keys is turned into attacks that use a single key, one for each of the keys: the attack on key
number `h` makes the other keys itself, and has the oracle encrypt one message.
-/
namespace D1

/-- The adversary asks at most `n` questions of a kind. -/
def OAdv.Makes {Q : Type} {R : Q → Type} (kind : Q → Bool) : OAdv Q R → Nat → Prop
  | .done _, _ => True
  | .toss _ k, n => ∀ x, (k x).Makes kind n
  | .ask q k, n => (kind q → 0 < n) ∧ ∀ r, (k r).Makes kind (if kind q then n - 1 else n)

theorem OAdv.Makes.mono {Q : Type} {R : Q → Type} {kind : Q → Bool} {t : OAdv Q R} :
    ∀ {m n : Nat}, t.Makes kind m → m ≤ n → t.Makes kind n := by
  induction t with
  | done b => exact fun _ _ => trivial
  | toss l k ih => exact fun h hm x => ih x (h x) hm
  | ask q k ih =>
    refine fun h hm => ⟨fun hq => lt_of_lt_of_le (h.1 hq) hm, fun r => ih r (h.2 r) ?_⟩
    split <;> omega

/-- The question is for an encryption. -/
def SealAsk.encrypts : SealAsk → Bool
  | .seal _ => true
  | .open _ _ _ _ => false

/-- The question is for an encryption. -/
def ForgeAsk.encrypts : ForgeAsk → Bool
  | .seal _ _ => true
  | .open _ _ _ _ => false

/-! ## Secrecy -/

/-- What the oracle answers to a decryption. -/
def sealAnswer (P : Prims) (e : SealRec) (nonce aad ct : Bytes) : Option Bytes :=
  if e.nonce = nonce ∧ e.aad = aad ∧ e.ct = ct then none else P.gcmOpen e.key.1 nonce aad ct

/-- The attack on key number `h`.  The messages before are the right ones, those after the left ones.  Of key number `h` nothing
is known. -/
def sealWith (P : Prims) (h : Nat) : OAdv SealAsk SealAsk.Ans → List (Option SealRec) → OAdv SealAsk SealAsk.Ans
  | .done b, _ => .done b
  | .toss n k, T => .toss n fun x => sealWith P h (k x) T
  | .ask (.seal q) k, T =>
    if T.length = h then .ask (.seal q) fun r => sealWith P h (k r) (T ++ [none])
    else .toss 32 fun key => .toss 12 fun nonce =>
      let ct := P.gcmSeal key.1 nonce.1 q.aad (if T.length < h then q.right else q.left)
      sealWith P h (k (nonce, ct)) (T ++ [some ⟨key, nonce.1, q.aad, ct⟩])
  | .ask (.open j nonce aad ct) k, T =>
    match T[j]? with
    | none => sealWith P h (k none) T
    | some none => .ask (.open 0 nonce aad ct) fun r => sealWith P h (k r) T
    | some (some e) => sealWith P h (k (sealAnswer P e nonce aad ct)) T

/-- The oracle that encrypts the right messages with the first `h` keys, and the left ones with the others. -/
noncomputable def sealMixed (P : Prims) (h : Nat) : (q : SealAsk) → List SealRec → PMF (q.Ans × List SealRec)
  | .seal q, s => sealOracle P (decide (s.length < h)) (.seal q) s
  | .open j nonce aad ct, s => sealOracle P false (.open j nonce aad ct) s

/-- The records of the attack: all but number `h`. -/
def without (h : Nat) (s : List SealRec) : List (Option SealRec) := s.mapIdx fun i e => if i = h then none else some e

/-- The records of the oracle: number `h`. -/
def only (h : Nat) (s : List SealRec) : List SealRec := s[h]?.toList

theorem length_without (h : Nat) (s : List SealRec) : (without h s).length = s.length := by simp [without]

theorem get_without (h : Nat) (s : List SealRec) (j : Nat) : (without h s)[j]? = s[j]?.map fun e => if j = h then none else some e := by
  simp [without]

theorem without_add (h : Nat) (s : List SealRec) (e : SealRec) :
    without h (s ++ [e]) = without h s ++ [if s.length = h then none else some e] := by
  simp [without, List.mapIdx_append]

theorem only_add_eq {h : Nat} {s : List SealRec} (hs : s.length = h) (e : SealRec) : only h (s ++ [e]) = only h s ++ [e] := by
  subst hs; simp [only]

theorem only_add_ne {h : Nat} {s : List SealRec} (hs : s.length ≠ h) (e : SealRec) : only h (s ++ [e]) = only h s := by
  simp only [only]
  rcases Nat.lt_or_gt_of_ne hs with hs | hs
  · rw [List.getElem?_eq_none (by simp; omega), List.getElem?_eq_none (by omega)]
  · rw [List.getElem?_append_left hs]

theorem play_sealWith (P : Prims) (h : Nat) (right : Bool) (t : OAdv SealAsk SealAsk.Ans) : ∀ s : List SealRec,
    (sealWith P h t (without h s)).play (sealOracle P right) (only h s) = t.play (sealMixed P (if right then h + 1 else h)) s := by
  induction t with
  | done b => exact fun s => rfl
  | toss n k ih =>
    intro s
    simp only [sealWith, OAdv.play]
    exact congrArg _ (funext fun x => ih x s)
  | ask q k ih =>
    intro s
    cases q with
    | «seal» q =>
      simp only [sealWith, length_without]
      by_cases hs : s.length = h
      · rw [if_pos hs]
        have hr : decide (s.length < if right then h + 1 else h) = right := by
          cases right <;> simp [hs]
        simp only [OAdv.play, sealMixed, hr, sealOracle, PMF.bind_bind, PMF.pure_bind]
        refine congrArg _ (funext fun key => congrArg _ (funext fun nonce => ?_))
        refine Eq.trans ?_ (ih _ _)
        rw [without_add, if_pos hs, only_add_eq hs]
      · rw [if_neg hs]
        have hr : decide (s.length < if right then h + 1 else h) = decide (s.length < h) := by
          cases right
          · rfl
          · rw [decide_eq_decide, if_pos rfl]; omega
        simp only [OAdv.play, sealMixed, hr, sealOracle, PMF.bind_bind, PMF.pure_bind, decide_eq_true_eq]
        refine congrArg _ (funext fun key => congrArg _ (funext fun nonce => ?_))
        refine Eq.trans ?_ (ih _ _)
        rw [without_add, if_neg hs, only_add_ne hs]
    | «open» j nonce aad ct =>
      simp only [sealWith, get_without, OAdv.play, sealMixed, sealOracle, PMF.pure_bind]
      cases hj : s[j]? with
      | none => exact ih _ s
      | some e =>
        by_cases hh : j = h
        · subst hh
          simp only [Option.map_some, if_true, OAdv.play, sealOracle, PMF.pure_bind]
          rw [show (only j s)[0]? = some e by simp [only, hj]]
          exact ih _ s
        · simp only [Option.map_some, if_neg hh]
          exact ih _ s

theorem play_mixed_none (P : Prims) (t : OAdv SealAsk SealAsk.Ans) : ∀ s, t.play (sealMixed P 0) s = t.play (sealOracle P false) s := by
  induction t with
  | done b => exact fun s => rfl
  | toss n k ih => exact fun s => congrArg (PMF.bind _) (funext fun x => ih x s)
  | ask q k ih =>
    intro s
    simp only [OAdv.play]
    have h : sealMixed P 0 q s = sealOracle P false q s := by cases q <;> simp [sealMixed]
    rw [h]
    exact congrArg _ (funext fun r => ih _ _)

theorem play_mixed_all (P : Prims) {n : Nat} (t : OAdv SealAsk SealAsk.Ans) : ∀ m s, t.Makes SealAsk.encrypts m →
    s.length + m ≤ n → t.play (sealMixed P n) s = t.play (sealOracle P true) s := by
  induction t with
  | done b => exact fun m s _ _ => rfl
  | toss l k ih => exact fun m s h hn => congrArg (PMF.bind _) (funext fun x => ih x m s (h x) hn)
  | ask q k ih =>
    intro m s h hn
    cases q with
    | «seal» q =>
      have hm := h.1 rfl
      have hk := h.2
      simp only [SealAsk.encrypts, if_true] at hk
      simp only [OAdv.play, sealMixed, sealOracle, PMF.bind_bind, PMF.pure_bind, decide_eq_true (show s.length < n by omega), if_true]
      refine congrArg _ (funext fun key => congrArg _ (funext fun nonce => ih _ (m - 1) _ (hk _) ?_))
      simp only [List.length_append, List.length_singleton]
      omega
    | «open» j nonce aad ct =>
      simp only [OAdv.play, sealMixed, sealOracle, PMF.pure_bind]
      exact ih _ m _ (h.2 _) hn

/-- The attack on key number `h` has one message encrypted. -/
theorem makes_sealWith (P : Prims) (h : Nat) (t : OAdv SealAsk SealAsk.Ans) : ∀ T : List (Option SealRec),
    (sealWith P h t T).Makes SealAsk.encrypts (if T.length ≤ h then 1 else 0) := by
  induction t with
  | done b => exact fun T => trivial
  | toss n k ih => exact fun T x => ih x T
  | ask q k ih =>
    intro T
    cases q with
    | «seal» q =>
      simp only [sealWith]
      by_cases hT : T.length = h
      · rw [if_pos hT, if_pos hT.le]
        refine ⟨fun _ => Nat.one_pos, fun r => ?_⟩
        have := ih r (T ++ [none])
        rwa [if_neg (by simp; omega)] at this
      · rw [if_neg hT]
        intro key nonce
        refine (ih _ _).mono ?_
        simp only [List.length_append, List.length_singleton]
        split <;> split <;> omega
    | «open» j nonce aad ct =>
      simp only [sealWith]
      split
      · exact ih _ T
      · exact ⟨fun h => absurd h Bool.false_ne_true, fun r => ih r T⟩
      · exact ih _ T

/-- It asks no more than the attack it is made from. -/
theorem asks_sealWith (P : Prims) (h : Nat) (t : OAdv SealAsk SealAsk.Ans) : ∀ {n : Nat} (T : List (Option SealRec)), t.Asks n →
    (sealWith P h t T).Asks n := by
  induction t with
  | done b => exact fun T _ => trivial
  | toss n k ih => exact fun T hn x => ih x T (hn x)
  | ask q k ih =>
    intro n T hn
    match n, hn with
    | n + 1, hn =>
      cases q with
      | «seal» q =>
        simp only [sealWith]
        split
        · exact fun r => ih r _ (hn r)
        · exact fun key nonce => (ih _ _ (hn _)).mono (by omega)
      | «open» j nonce aad ct =>
        simp only [sealWith]
        split
        · exact (ih _ _ (hn _)).mono (by omega)
        · exact fun r => ih r _ (hn r)
        · exact (ih _ _ (hn _)).mono (by omega)

theorem makes_of_asks {Q : Type} {R : Q → Type} (kind : Q → Bool) {t : OAdv Q R} : ∀ {n : Nat}, t.Asks n → t.Makes kind n := by
  induction t with
  | done b => exact fun _ => trivial
  | toss n k ih => exact fun h x => ih x (h x)
  | ask q k ih =>
    intro n h
    match n, h with
    | n + 1, h =>
      refine ⟨fun _ => by omega, fun r => (ih r (h r)).mono ?_⟩
      split <;> omega

theorem chain_le (H : Nat → PMF Bool) (n : Nat) : gap (H 0) (H n) ≤ ∑ h ∈ Finset.range n, gap (H h) (H (h + 1)) := by
  induction n with
  | zero => simp [gap]
  | succ n ih =>
    rw [Finset.sum_range_succ]
    refine le_trans ?_ (add_le_add_left ih _)
    exact abs_sub_le _ _ _

/-- Telling ciphertexts under many keys apart is no easier than telling ciphertexts under one of them apart. -/
theorem sealGap_le (P : Prims) {n : Nat} {t : OAdv SealAsk SealAsk.Ans} (ht : t.Makes SealAsk.encrypts n) :
    sealGap P t ≤ ∑ h ∈ Finset.range n, sealGap P (sealWith P h t []) := by
  have hc := chain_le (fun h => t.play (sealMixed P h) []) n
  refine le_trans (le_of_eq ?_) (le_trans hc (le_of_eq ?_))
  · simp only [sealGap]
    rw [play_mixed_none, play_mixed_all P t n [] ht (by simp)]
  · refine Finset.sum_congr rfl fun h _ => ?_
    exact (congrArg₂ gap (play_sealWith P h false t []) (play_sealWith P h true t [])).symm

/-! ## Forgeries -/

/-- The attack on key number `h`.  With the keys before it decrypts, with those after it does not. -/
def forgeWith (P : Prims) (h : Nat) : OAdv ForgeAsk ForgeAsk.Ans → List (Option SealRec) → OAdv ForgeAsk ForgeAsk.Ans
  | .done b, _ => .done b
  | .toss n k, T => .toss n fun x => forgeWith P h (k x) T
  | .ask (.seal m aad) k, T =>
    if T.length = h then .ask (.seal m aad) fun r => forgeWith P h (k r) (T ++ [none])
    else .toss 32 fun key => .toss 12 fun nonce =>
      let ct := P.gcmSeal key.1 nonce.1 aad m
      forgeWith P h (k (nonce, ct)) (T ++ [some ⟨key, nonce.1, aad, ct⟩])
  | .ask (.open j nonce aad ct) k, T =>
    match T[j]? with
    | none => forgeWith P h (k none) T
    | some none => .ask (.open 0 nonce aad ct) fun r => forgeWith P h (k r) T
    | some (some e) => forgeWith P h (k (if j < h then sealAnswer P e nonce aad ct else none)) T

/-- The oracle that decrypts with the first `h` keys, and not with the others. -/
noncomputable def forgeMixed (P : Prims) (h : Nat) : (q : ForgeAsk) → List SealRec → PMF (q.Ans × List SealRec)
  | .seal m aad, s => forgeOracle P true (.seal m aad) s
  | .open j nonce aad ct, s => forgeOracle P (decide (j < h)) (.open j nonce aad ct) s

theorem play_forgeWith (P : Prims) (h : Nat) (real : Bool) (t : OAdv ForgeAsk ForgeAsk.Ans) : ∀ s : List SealRec,
    (forgeWith P h t (without h s)).play (forgeOracle P real) (only h s) = t.play (forgeMixed P (if real then h + 1 else h)) s := by
  induction t with
  | done b => exact fun s => rfl
  | toss n k ih =>
    intro s
    simp only [forgeWith, OAdv.play]
    exact congrArg _ (funext fun x => ih x s)
  | ask q k ih =>
    intro s
    cases q with
    | «seal» m aad =>
      simp only [forgeWith, length_without]
      by_cases hs : s.length = h
      · rw [if_pos hs]
        simp only [OAdv.play, forgeMixed, forgeOracle, PMF.bind_bind, PMF.pure_bind]
        refine congrArg _ (funext fun key => congrArg _ (funext fun nonce => ?_))
        refine Eq.trans ?_ (ih _ _)
        rw [without_add, if_pos hs, only_add_eq hs]
      · rw [if_neg hs]
        simp only [OAdv.play, forgeMixed, forgeOracle, PMF.bind_bind, PMF.pure_bind]
        refine congrArg _ (funext fun key => congrArg _ (funext fun nonce => ?_))
        refine Eq.trans ?_ (ih _ _)
        rw [without_add, if_neg hs, only_add_ne hs]
    | «open» j nonce aad ct =>
      simp only [forgeWith, get_without, OAdv.play, forgeMixed, forgeOracle, PMF.pure_bind]
      cases hj : s[j]? with
      | none => exact ih _ s
      | some e =>
        by_cases hh : j = h
        · subst hh
          have hr : decide (j < if real then j + 1 else j) = real := by cases real <;> simp
          simp only [Option.map_some, if_true, OAdv.play, forgeOracle, PMF.pure_bind, hr]
          rw [show (only j s)[0]? = some e by simp [only, hj]]
          exact ih _ s
        · have hr : decide (j < if real then h + 1 else h) = decide (j < h) := by
            cases real
            · rfl
            · rw [decide_eq_decide, if_pos rfl]; omega
          simp only [Option.map_some, if_neg hh, hr, decide_eq_true_eq]
          refine (ih _ s).trans ?_
          have ha : (if j < h then sealAnswer P e nonce aad ct else none) =
              if e.nonce = nonce ∧ e.aad = aad ∧ e.ct = ct then none else if j < h then P.gcmOpen e.key.1 nonce aad ct else none := by
            simp only [sealAnswer]
            split <;> split <;> rfl
          exact congrArg (fun a : Option Bytes => OAdv.play (forgeMixed P (if real = true then h + 1 else h)) (k a) s) ha

theorem play_forged_none (P : Prims) (t : OAdv ForgeAsk ForgeAsk.Ans) : ∀ s, t.play (forgeMixed P 0) s = t.play (forgeOracle P false) s := by
  induction t with
  | done b => exact fun s => rfl
  | toss n k ih => exact fun s => congrArg (PMF.bind _) (funext fun x => ih x s)
  | ask q k ih =>
    intro s
    simp only [OAdv.play]
    have h : forgeMixed P 0 q s = forgeOracle P false q s := by cases q <;> simp [forgeMixed, forgeOracle]
    rw [h]
    exact congrArg _ (funext fun r => ih _ _)

theorem play_forged_all (P : Prims) {n : Nat} (t : OAdv ForgeAsk ForgeAsk.Ans) : ∀ m s, t.Makes ForgeAsk.encrypts m →
    s.length + m ≤ n → t.play (forgeMixed P n) s = t.play (forgeOracle P true) s := by
  induction t with
  | done b => exact fun m s _ _ => rfl
  | toss l k ih => exact fun m s h hn => congrArg (PMF.bind _) (funext fun x => ih x m s (h x) hn)
  | ask q k ih =>
    intro m s h hn
    cases q with
    | «seal» q aad =>
      have hm := h.1 rfl
      have hk := h.2
      simp only [ForgeAsk.encrypts, if_true] at hk
      simp only [OAdv.play, forgeMixed, forgeOracle, PMF.bind_bind, PMF.pure_bind]
      refine congrArg _ (funext fun key => congrArg _ (funext fun nonce => ih _ (m - 1) _ (hk _) ?_))
      simp only [List.length_append, List.length_singleton]
      omega
    | «open» j nonce aad ct =>
      simp only [OAdv.play, forgeMixed, forgeOracle, PMF.pure_bind]
      cases hj : s[j]? with
      | none => exact ih _ m _ (h.2 _) hn
      | some e =>
        have hl : j < n := by
          have := (List.getElem?_eq_some_iff.mp hj).1
          omega
        simp only [decide_eq_true hl]
        exact ih _ m _ (h.2 _) hn

/-- The attack on key number `h` has one message encrypted. -/
theorem makes_forgeWith (P : Prims) (h : Nat) (t : OAdv ForgeAsk ForgeAsk.Ans) : ∀ T : List (Option SealRec),
    (forgeWith P h t T).Makes ForgeAsk.encrypts (if T.length ≤ h then 1 else 0) := by
  induction t with
  | done b => exact fun T => trivial
  | toss n k ih => exact fun T x => ih x T
  | ask q k ih =>
    intro T
    cases q with
    | «seal» q aad =>
      simp only [forgeWith]
      by_cases hT : T.length = h
      · rw [if_pos hT, if_pos hT.le]
        refine ⟨fun _ => Nat.one_pos, fun r => ?_⟩
        have := ih r (T ++ [none])
        rwa [if_neg (by simp; omega)] at this
      · rw [if_neg hT]
        intro key nonce
        refine (ih _ _).mono ?_
        simp only [List.length_append, List.length_singleton]
        split <;> split <;> omega
    | «open» j nonce aad ct =>
      simp only [forgeWith]
      split
      · exact ih _ T
      · exact ⟨fun h => absurd h Bool.false_ne_true, fun r => ih r T⟩
      · exact ih _ T

/-- It asks no more than the attack it is made from. -/
theorem asks_forgeWith (P : Prims) (h : Nat) (t : OAdv ForgeAsk ForgeAsk.Ans) : ∀ {n : Nat} (T : List (Option SealRec)), t.Asks n →
    (forgeWith P h t T).Asks n := by
  induction t with
  | done b => exact fun T _ => trivial
  | toss n k ih => exact fun T hn x => ih x T (hn x)
  | ask q k ih =>
    intro n T hn
    match n, hn with
    | n + 1, hn =>
      cases q with
      | «seal» q aad =>
        simp only [forgeWith]
        split
        · exact fun r => ih r _ (hn r)
        · exact fun key nonce => (ih _ _ (hn _)).mono (by omega)
      | «open» j nonce aad ct =>
        simp only [forgeWith]
        split
        · exact (ih _ _ (hn _)).mono (by omega)
        · exact fun r => ih r _ (hn r)
        · exact (ih _ _ (hn _)).mono (by omega)

/-- Forging ciphertexts under one of many keys is no easier than forging a ciphertext under one key. -/
theorem forgeGap_le (P : Prims) {n : Nat} {t : OAdv ForgeAsk ForgeAsk.Ans} (ht : t.Makes ForgeAsk.encrypts n) :
    forgeGap P t ≤ ∑ h ∈ Finset.range n, forgeGap P (forgeWith P h t []) := by
  have hc := chain_le (fun h => t.play (forgeMixed P h) []) n
  refine le_trans (le_of_eq ?_) (le_trans hc (le_of_eq ?_))
  · simp only [forgeGap]
    rw [play_forged_none, play_forged_all P t n [] ht (by simp)]
    exact abs_sub_comm _ _
  · refine Finset.sum_congr rfl fun h _ => ?_
    refine (abs_sub_comm _ _).trans ?_
    exact (congrArg₂ gap (play_forgeWith P h true t []) (play_forgeWith P h false t [])).symm

end D1
