import Verif.Proofs.Passwords
import Verif.Props.Outsiders
import Verif.Props.Fresh
import Verif.Props.Versions
import Verif.Props.NewIds
import Verif.Props.DirLinear
/-!
# C113: what is drawn is new

C69, C71, C76, C84, C109 and C111 are about executions in which the random source does not repeat itself.  Here it is random: the
answer to the draw at a moment is made of 32 random bytes for that moment.  Whatever else happens, also depending on all of these
bytes, the source repeats itself with a small chance only.
-/
namespace D1
open Spec Prog

/-! ## Specification -/

/-- The first `n` of 32 bytes.  (No draw of the library is of more than 32 bytes.) -/
def cut (b : BytesN 32) (n : Nat) : BytesN n := ⟨(b.1 ++ List.replicate n 0).take n, by simp [b.2]⟩

/-- Random bytes for `T` moments. -/
noncomputable def reel : Nat → PMF (List (BytesN 32))
  | 0 => PMF.pure []
  | T + 1 => (reel T).bind fun l => (unif 32).bind fun b => PMF.pure (l ++ [b])

open Classical in
/-- The chance of an event. -/
noncomputable def prob {α : Type} (p : PMF α) (E : α → Prop) : ℝ := chance (p.bind fun a => PMF.pure (decide (E a)))

/-- The chance that the random bytes of `T` moments are such. -/
noncomputable def odds (T : Nat) (E : List (BytesN 32) → Prop) : ℝ := prob (reel T) E

/-- The environment with these bytes from moment `t0` on.  It may still refuse to answer. -/
def Env.reeled (env : Env) (t0 : Nat) (l : List (BytesN 32)) : Env :=
  { env with rand := fun t n => (env.rand t n).map fun _ => cut (l[t - t0]?.getD noKey) n }

/-- The draws of a history are answered with these bytes, or refused. -/
def Reeled (l : List (BytesN 32)) (H : List (Nat × Event)) : Prop :=
  ∀ (m i n : Nat) (r : Option (BytesN n)), H[m]? = some (i, (⟨.rand n, r⟩ : Event)) → r = none ∨ ∃ b, l[m]? = some b ∧ r = some (cut b n)

/-- The same for histories of steps. -/
def StepsReeled (l : List (BytesN 32)) (tr : List (Nat × Step)) : Prop :=
  ∀ (m i n : Nat) (r : Option (BytesN n)), tr[m]? = some (i, Step.eff (⟨.rand n, r⟩ : Event)) → r = none ∨ ∃ b, l[m]? = some b ∧ r = some (cut b n)

/-- The conclusion of C69: a history of calls is linearizable, and in the end everything is there that should be. -/
def VaultLinear (P : Prims) (d : D1) (env : Env) (who : GoString → Option Identity → Prop) (w : World) (v : Vault) (calls : List Call)
    (sch : List Nat) : Prop :=
  ∃ l v', LinRun (fun j v out v' => ∃ c, calls[j]? = some c ∧ VaultStep env who c v out v') l v v' ∧ (l.map Prod.fst).Nodup ∧
    (∀ j out, (j, out) ∈ l → j ∈ sch) ∧
    (∀ n, ∃ l1 l2, l = l1 ++ l2 ∧
      (∀ j out, (j, out) ∈ commits env (sch.take n) w (calls.map (callProg P d)) → (j, out) ∈ l1) ∧
      ∀ j out, (j, out) ∈ l1 → j ∈ sch.take n) ∧
    ∀ oid, (∀ j c, calls[j]? = some c → InProgress env sch w (calls.map (callProg P d)) sch.length j →
        c.encrypts = false ∧ (c.onOid = some oid → c.replaces = false)) →
      match v' oid with
      | none => (sched env sch w (calls.map (callProg P d))).1.store oid.1 dtObject = none ∧
          (sched env sch w (calls.map (callProg P d))).1.store oid.1 dtAccess = none
      | some e => EntryAt P d (sched env sch w (calls.map (callProg P d))).1.store oid e

/-- Some calls that never conflict are made within `T` steps, in some environment with these random bytes, and the history is not
linearizable. -/
def VaultFails (P : Prims) (d : D1) (who : GoString → Option Identity → Prop) (w : World) (v : Vault) (T : Nat) (l : List (BytesN 32)) : Prop :=
  ∃ (env : Env) (calls : List Call) (sch : List Nat), NoFault env ∧ sch.length ≤ T ∧
    (∀ n, n < sch.length → ∀ i j a b, i ≠ j → calls[i]? = some a → calls[j]? = some b →
      InProgress (env.reeled w.t l) sch w (calls.map (callProg P d)) n i →
      InProgress (env.reeled w.t l) sch w (calls.map (callProg P d)) n j → ¬ Conflict a b) ∧
    ¬VaultLinear P d (env.reeled w.t l) who w v calls sch

/-- Some calls are made, with these random bytes, and two ciphertexts that leave the library have the same nonce. -/
def NonceTwice (P : Prims) (d : D1) (i : SecureIndex) (s : Standalone) (l : List (BytesN 32)) : Prop :=
  ∃ (calls : Nat → ApiCall) (tr : List (Nat × Step)), StepsReeled l tr ∧ (∀ n, Acts (outProg P d i s (calls n)) (own n tr)) ∧
    ∃ (a b : Nat) (o o' : Out) (c c' : Bytes), a ≠ b ∧ (outsIn tr)[a]? = some o ∧ (outsIn tr)[b]? = some o' ∧ cipherOf P o = some c ∧ cipherOf P o' = some c' ∧
      c.drop (c.length - 12) = c'.drop (c'.length - 12)

/-! ## Chances -/

theorem reel_bind {α : Type} (T : Nat) (f : List (BytesN 32) → PMF α) :
    (reel (T + 1)).bind f = (reel T).bind fun l => (unif 32).bind fun b => f (l ++ [b]) := by
  simp only [reel, PMF.bind_bind, PMF.pure_bind]

theorem reel_length {T : Nat} {l : List (BytesN 32)} (h : l ∈ (reel T).support) : l.length = T := by
  induction T generalizing l with
  | zero =>
    rw [reel, PMF.support_pure, Set.mem_singleton_iff] at h
    rw [h]; rfl
  | succ T ih =>
    simp only [reel, PMF.mem_support_bind_iff, PMF.support_pure, Set.mem_singleton_iff] at h
    obtain ⟨l', h1, b, -, rfl⟩ := h
    rw [List.length_append, ih h1]; rfl

theorem prob_mono {α : Type} (p : PMF α) {E F : α → Prop} (h : ∀ a ∈ p.support, E a → F a) : prob p E ≤ prob p F := by
  refine ENNReal.toReal_mono (PMF.apply_ne_top _ _) ?_
  rw [PMF.bind_apply, PMF.bind_apply]
  refine ENNReal.tsum_le_tsum fun a => ?_
  by_cases ha : p a = 0
  · simp [ha]
  · refine mul_le_mul_right ?_ _
    by_cases hE : E a
    · simp [hE, h a ((PMF.mem_support_iff _ _).mpr ha) hE]
    · simp [hE]

theorem prob_or {α : Type} (p : PMF α) (E F : α → Prop) : prob p (fun a => E a ∨ F a) ≤ prob p E + prob p F := by
  refine chance_bind_add p _ _ _ fun a => ?_
  by_cases h1 : E a <;> by_cases h2 : F a <;> simp [h1, h2, chance]

theorem prob_const {α : Type} (p : PMF α) (E : Prop) : prob p (fun _ => E) = prob (PMF.pure ()) fun _ => E := by
  simp only [prob, PMF.bind_const]

theorem prob_bind {α β : Type} (p : PMF α) (q : α → PMF β) (E : β → Prop) :
    prob (p.bind q) E = chance (p.bind fun a => (q a).bind fun b => PMF.pure (@decide (E b) (Classical.propDecidable _))) := by
  rw [prob, PMF.bind_bind]

theorem odds_mono {T : Nat} {E F : List (BytesN 32) → Prop} (h : ∀ l, l.length = T → E l → F l) : odds T E ≤ odds T F :=
  prob_mono _ fun l hl => h l (reel_length hl)

theorem prob_none {α : Type} (p : PMF α) {E : α → Prop} (h : ∀ a, ¬E a) : prob p E = 0 := by
  simp [prob, chance, h]

theorem prob_mem {α γ : Type} (p : PMF α) (f : α → γ) {δ : ℝ} (hδ : ∀ c, prob p (fun a => f a = c) ≤ δ) (S : List γ) :
    prob p (fun a => f a ∈ S) ≤ S.length * δ := by
  induction S with
  | nil => rw [prob_none p (by simp)]; simp
  | cons c S ih =>
    refine (prob_mono p (F := fun a => f a = c ∨ f a ∈ S) fun a _ h => List.mem_cons.mp h).trans ?_
    refine (prob_or p _ _).trans ?_
    have := hδ c
    rw [List.length_cons, Nat.cast_add, Nat.cast_one, add_mul, one_mul]
    linarith

/-- Everything drawn is new. -/
def AllNew {γ : Type} (f : BytesN 32 → γ) (S : List γ) (l : List (BytesN 32)) : Prop := (l.map f).Nodup ∧ ∀ x ∈ l.map f, x ∉ S

theorem allNew_snoc {γ : Type} {f : BytesN 32 → γ} {S : List γ} {l : List (BytesN 32)} {b : BytesN 32} (h : AllNew f S l)
    (hb : f b ∉ S ++ l.map f) : AllNew f S (l ++ [b]) := by
  rw [List.mem_append, not_or] at hb
  refine ⟨?_, fun x hx => ?_⟩
  · rw [List.map_append, List.map_singleton]
    refine List.nodup_append.mpr ⟨h.1, by simp, fun a ha c hc => ?_⟩
    rw [List.mem_singleton] at hc
    rintro rfl
    exact hb.2 (hc ▸ ha)
  · rw [List.map_append, List.map_singleton, List.mem_append, List.mem_singleton] at hx
    rcases hx with hx | rfl
    · exact h.2 x hx
    · exact hb.1

/-- Something drawn was drawn before, or was there in the beginning. -/
theorem odds_repeat {γ : Type} (f : BytesN 32 → γ) (S : List γ) {δ : ℝ} (h0 : 0 ≤ δ) (hδ : ∀ c, prob (unif 32) (fun b => f b = c) ≤ δ)
    (T : Nat) : odds T (fun l => ¬AllNew f S l) ≤ (T * S.length + T * (T - 1) / 2) * δ := by
  induction T with
  | zero => simp [odds, prob, reel, chance, AllNew]
  | succ T ih =>
    rw [odds, prob, reel_bind]
    refine (chance_bind_add _ _ (fun l => PMF.pure (@decide (¬AllNew f S l) (Classical.propDecidable _)))
      (fun l => (unif 32).bind fun b => PMF.pure (@decide (f b ∈ S ++ l.map f) (Classical.propDecidable _))) fun l => ?_).trans ?_
    · refine (prob_mono (unif 32) (F := fun b => ¬AllNew f S l ∨ f b ∈ S ++ l.map f) fun b _ h => ?_).trans ?_
      · by_contra hc
        push Not at hc
        exact h (allNew_snoc hc.1 hc.2)
      · refine (prob_or _ _ _).trans (le_of_eq ?_)
        rw [prob, PMF.bind_const]; rfl
    · refine (add_le_add (b := (T * S.length + T * (T - 1) / 2) * δ) ih
        (chance_bind_le _ _ (c := (S.length + T) * δ) (fun l hl => ?_) (by positivity))).trans (le_of_eq ?_)
      · refine (prob_mem (unif 32) f hδ _).trans (le_of_eq ?_)
        rw [List.length_append, List.length_map, reel_length hl]
        push_cast; rfl
      · push_cast; ring

/-! ## How many strings give the same value -/

theorem card_bytesN (n : Nat) [Fintype (BytesN n)] : Fintype.card (BytesN n) = 256 ^ n := by
  let _ := Fintype.ofFinite UInt8
  have h8 : Fintype.card UInt8 = 256 := by
    rw [Fintype.card_congr (⟨UInt8.toFin, UInt8.ofFin, fun _ => rfl, fun _ => rfl⟩ : UInt8 ≃ Fin UInt8.size)]
    exact Fintype.card_fin _
  have := card_vector (α := UInt8) n
  rw [h8] at this
  rw [← this]
  exact Fintype.card_congr (Equiv.refl _)

theorem prob_unif {E : BytesN 32 → Prop} {β : Type} [Fintype β] (g : BytesN 32 → β) (hg : ∀ a b, E a → E b → g a = g b → a = b) :
    prob (unif 32) E ≤ (Fintype.card β : ℝ) / 256 ^ 32 := by
  classical
  let _ := Fintype.ofFinite (BytesN 32)
  have h1 : (Finset.univ.filter E).card ≤ Fintype.card β := by
    refine Finset.card_le_card_of_injOn (s := Finset.univ.filter E) (t := Finset.univ) g (by simp) fun a ha b hb e => ?_
    simp only [Finset.coe_filter, Finset.mem_univ, true_and, Set.mem_ofPred_eq] at ha hb
    exact hg a b ha hb e
  have h2 : ((unif 32).bind fun a => PMF.pure (@decide (E a) (Classical.propDecidable _))) true
      = (Finset.univ.filter E).card * ((256 ^ 32 : ℕ) : ENNReal)⁻¹ := by
    rw [PMF.bind_apply, tsum_fintype, Finset.card_filter, Nat.cast_sum, Finset.sum_mul]
    refine Finset.sum_congr rfl fun a _ => ?_
    rw [unif, PMF.uniformOfFintype_apply, card_bytesN]
    by_cases h : E a <;> simp [h]
  rw [prob, chance, h2, ENNReal.toReal_mul, ENNReal.toReal_inv, ENNReal.toReal_natCast, ENNReal.toReal_natCast, div_eq_mul_inv]
  rw [Nat.cast_pow, Nat.cast_ofNat]
  exact mul_le_mul_of_nonneg_right (Nat.cast_le.mpr h1) (by positivity)

theorem cut_val (b : BytesN 32) {n : Nat} (h : n ≤ 32) : (cut b n).1 = b.1.take n := by
  exact List.take_append_of_le_length (by rw [b.2]; exact h)

theorem prob_cut {n : Nat} (hn : n ≤ 32) (c : BytesN n) : prob (unif 32) (fun b => cut b n = c) ≤ 1 / 256 ^ n := by
  let _ := Fintype.ofFinite (BytesN (32 - n))
  refine (prob_unif (β := BytesN (32 - n)) (fun b => ⟨b.1.drop n, by simp [b.2]⟩) fun a b ha hb e => ?_).trans (le_of_eq ?_)
  · have e1 := congrArg Subtype.val (ha.trans hb.symm)
    rw [cut_val a hn, cut_val b hn] at e1
    have e2 := congrArg Subtype.val e
    refine Subtype.ext ?_
    rw [← List.take_append_drop n a.1, e1, show a.1.drop n = b.1.drop n from e2, List.take_append_drop]
  · rw [card_bytesN]
    push_cast
    rw [div_eq_div_iff (by positivity) (by positivity), one_mul, ← pow_add, Nat.sub_add_cancel hn]

theorem prob_v4 (c : Oid) : prob (unif 32) (fun b => mkV4 (cut b 16) = c) ≤ 1 / 2 ^ 122 := by
  let _ := Fintype.ofFinite (BytesN 16)
  refine (prob_unif (β := Fin 16 × Fin 4 × BytesN 16) (fun b => (⟨(b.1.getD 6 0).toNat / 16, by have := (b.1.getD 6 0).toNat_lt; omega⟩,
    ⟨(b.1.getD 8 0).toNat / 64, by have := (b.1.getD 8 0).toNat_lt; omega⟩, ⟨b.1.drop 16, by simp [b.2]⟩)) fun a b ha hb e => ?_).trans
    (le_of_eq ?_)
  · simp only [Prod.mk.injEq, Fin.mk.injEq, Subtype.mk.injEq] at e
    obtain ⟨e6, e8, er⟩ := e
    have hu := congrArg Subtype.val (ha.trans hb.symm)
    obtain ⟨h6, h8, hr⟩ := (C72_collision (mkV4_madeOf (cut a 16)) (mkV4_madeOf (cut b 16)) (uuidText_textOf _) (uuidText_textOf _)).2.mp hu
    rw [cut_val a (by omega), cut_val b (by omega)] at h6 h8 hr
    have ht : ∀ (x : BytesN 32) (i : Nat), i < 16 → (x.1.take 16).getD i 0 = x.1.getD i 0 := fun x i hi => by
      rw [List.getD_eq_getElem?_getD, List.getElem?_take_of_lt hi, ← List.getD_eq_getElem?_getD]
    rw [ht _ _ (by omega), ht _ _ (by omega)] at h6 h8
    refine Subtype.ext ?_
    refine List.ext_getElem (a.2.trans b.2.symm) fun i hi hi' => ?_
    have hg : ∀ (x : BytesN 32) (h : i < x.1.length), x.1[i] = x.1.getD i 0 := fun x h => by
      rw [List.getD_eq_getElem?_getD, List.getElem?_eq_getElem h]; rfl
    rw [hg a hi, hg b hi']
    rcases Nat.lt_or_ge i 16 with h16 | h16
    · by_cases i6 : i = 6
      · subst i6; exact UInt8.toNat_inj.mp (by omega)
      · by_cases i8 : i = 8
        · subst i8; exact UInt8.toNat_inj.mp (by omega)
        · have := hr i h16 i6 i8
          rwa [ht _ _ h16, ht _ _ h16] at this
    · have := congrArg (fun l : Bytes => l.getD (i - 16) 0) er
      simpa [List.getD_eq_getElem?_getD, List.getElem?_drop, Nat.add_sub_cancel' h16] using this
  · simp only [Fintype.card_prod, Fintype.card_fin, card_bytesN]
    norm_num

theorem uuidText_inj {u u' : Oid} (h : uuidText u = uuidText u') : u = u' :=
  Subtype.ext (textOf_inj u.2 u'.2 (uuidText_textOf u) (h ▸ uuidText_textOf u'))

theorem prob_name (c : GoString) : prob (unif 32) (fun b => newName (cut b 16) = c) ≤ 1 / 2 ^ 122 := by
  by_cases h : ∃ u, uuidText u = c
  · obtain ⟨u, rfl⟩ := h
    exact (prob_mono _ fun b _ e => uuidText_inj e).trans (prob_v4 u)
  · rw [prob_none (E := fun b => newName (cut b 16) = c) _ fun b e => h ⟨_, e⟩]
    positivity

/-! ## The theorems -/

theorem map_apart {γ : Type} {f : BytesN 32 → γ} {l : List (BytesN 32)} (h : (l.map f).Nodup) {m m' : Nat} {b b' : BytesN 32}
    (hb : l[m]? = some b) (hb' : l[m']? = some b') (e : f b = f b') : m = m' := by
  have hm := (List.getElem?_eq_some_iff.mp hb).1
  refine (List.getElem?_inj (l := l.map f) (by rw [List.length_map]; exact hm) h).mp ?_
  rw [List.getElem?_map, List.getElem?_map, hb, hb', Option.map_some, Option.map_some, e]

theorem reeled_rand {env : Env} {t0 t n : Nat} {l : List (BytesN 32)} {b : BytesN n} (h0 : t0 ≤ t) (h1 : t < t0 + l.length)
    (h : (env.reeled t0 l).rand t n = some b) : ∃ c, l[t - t0]? = some c ∧ b = cut c n := by
  simp only [Env.reeled, Option.map_eq_some_iff] at h
  obtain ⟨_, -, rfl⟩ := h
  have : t - t0 < l.length := by omega
  exact ⟨l[t - t0], List.getElem?_eq_getElem this, by rw [List.getElem?_eq_getElem this]; rfl⟩

theorem freshIds_of {l : List (BytesN 32)} {s : Store} {S : List Oid} (hS : ∀ oid dt, s oid.1 dt ≠ none → oid ∈ S)
    (h : AllNew (fun b => mkV4 (cut b 16)) S l) (env : Env) (t0 : Nat) : FreshIds (env.reeled t0 l) s t0 (t0 + l.length) := by
  intro t b h0 h1 hb
  obtain ⟨c, hc, rfl⟩ := reeled_rand h0 h1 hb
  refine ⟨fun dt => ?_, fun t' b' h2 h3 hb' e => ?_⟩
  · by_contra hn
    exact h.2 _ (List.mem_map.mpr ⟨c, List.mem_of_getElem? hc, rfl⟩) (hS _ dt hn)
  · obtain ⟨c', hc', rfl⟩ := reeled_rand (by omega) h3 hb'
    have := map_apart h.1 hc hc' e
    omega

theorem freshNames_of {l : List (BytesN 32)} {v : Dir} {S : List GoString}
    (hS : ∀ x, v.users x ≠ none ∨ v.groups x ≠ none ∨ (∃ uid u, v.users uid = some u ∧ x ∈ u.groups) → x ∈ S)
    (h : AllNew (fun b => newName (cut b 16)) S l) (env : Env) (t0 : Nat) : FreshNames (env.reeled t0 l) v t0 (t0 + l.length) := by
  intro t b h0 h1 hb
  obtain ⟨c, hc, rfl⟩ := reeled_rand h0 h1 hb
  have hn := fun x => h.2 _ (List.mem_map.mpr ⟨c, List.mem_of_getElem? hc, rfl⟩) (hS _ x)
  refine ⟨?_, ?_, fun uid u hu hm => hn (.inr (.inr ⟨uid, u, hu, hm⟩)), fun t' b' h2 h3 hb' e => ?_⟩
  · by_contra hx; exact hn (.inl hx)
  · by_contra hx; exact hn (.inr (.inl hx))
  · obtain ⟨c', hc', rfl⟩ := reeled_rand (by omega) h3 hb'
    have := map_apart h.1 hc hc' e
    omega

/-- C113: the identifiers drawn within `T` moments are new, but for this chance. -/
theorem C113_ids (s : Store) (S : List Oid) (hS : ∀ oid dt, s oid.1 dt ≠ none → oid ∈ S) (t0 T : Nat) :
    odds T (fun l => ¬∀ env : Env, FreshIds (env.reeled t0 l) s t0 (t0 + T)) ≤ (T * S.length + T * (T - 1) / 2) / 2 ^ 122 := by
  rw [div_eq_mul_one_div]
  refine (odds_mono fun l hl h hn => ?_).trans (odds_repeat (fun b => mkV4 (cut b 16)) S (by positivity) prob_v4 T)
  subst hl
  exact h fun env => freshIds_of hS hn env t0

/-- C113: and so are the names of new users and groups. -/
theorem C113_names (v : Dir) (S : List GoString)
    (hS : ∀ x, v.users x ≠ none ∨ v.groups x ≠ none ∨ (∃ uid u, v.users uid = some u ∧ x ∈ u.groups) → x ∈ S) (t0 T : Nat) :
    odds T (fun l => ¬∀ env : Env, FreshNames (env.reeled t0 l) v t0 (t0 + T)) ≤ (T * S.length + T * (T - 1) / 2) / 2 ^ 122 := by
  rw [div_eq_mul_one_div]
  refine (odds_mono fun l hl h hn => ?_).trans (odds_repeat (fun b => newName (cut b 16)) S (by positivity) prob_name T)
  subst hl
  exact h fun env => freshNames_of hS hn env t0

/-- C113: no two calls draw the same key. -/
theorem C113_keys (T : Nat) : odds T (fun l => ¬∀ H, Reeled l H → DrawnApart H) ≤ T * (T - 1) / 2 / 256 ^ 32 := by
  have := odds_repeat (fun b => cut b 32) [] (by positivity) (prob_cut (Nat.le_refl 32)) T
  rw [List.length_nil, Nat.cast_zero, mul_zero, zero_add, ← div_eq_mul_one_div] at this
  refine (odds_mono fun l _ h hn => ?_).trans this
  refine h fun H hH i j k hi hj => ?_
  obtain ⟨x, hx, ex⟩ := List.mem_filterMap.mp hi
  obtain ⟨y, hy, ey⟩ := List.mem_filterMap.mp hj
  obtain ⟨m, hm⟩ := List.mem_iff_getElem?.mp hx
  obtain ⟨m', hm'⟩ := List.mem_iff_getElem?.mp hy
  obtain ⟨i', ei⟩ := x
  obtain ⟨j', ej⟩ := y
  simp only [Option.ite_none_right_eq_some, Option.some.injEq] at ex ey
  obtain ⟨rfl, rfl⟩ := ex
  obtain ⟨rfl, rfl⟩ := ey
  rcases hH m i' 32 (some k) hm with h0 | ⟨b, hb, e⟩
  · cases h0
  rcases hH m' j' 32 (some k) hm' with h0 | ⟨b', hb', e'⟩
  · cases h0
  obtain rfl := map_apart hn.1 hb hb' (Option.some.inj (e.symm.trans e'))
  exact congrArg Prod.fst (Option.some.inj (hm.symm.trans hm'))

/-- C113: no 12 or more bytes are drawn twice. -/
theorem C113_draws (T : Nat) :
    odds T (fun l => ¬∀ tr, StepsReeled l tr → ((drawnIn tr).filter (12 ≤ ·.length)).Nodup) ≤ T * (T - 1) / 2 / 256 ^ 12 := by
  have := odds_repeat (fun b => cut b 12) [] (by positivity) (prob_cut (by omega)) T
  rw [List.length_nil, Nat.cast_zero, mul_zero, zero_add, ← div_eq_mul_one_div] at this
  refine (odds_mono fun l _ h hn => ?_).trans this
  refine h fun tr htr => ?_
  rw [drawnIn, List.filter_flatMap, List.nodup_flatMap]
  have key : ∀ (m i : Nat) (st : Step) (x : Bytes), tr[m]? = some (i, st) → x ∈ st.drawn.filter (12 ≤ ·.length) →
      ∃ b, l[m]? = some b ∧ x.take 12 = (cut b 12).1 := by
    intro m i st x hm hx
    rw [List.mem_filter] at hx
    obtain ⟨hx, h12⟩ := hx
    have h12 := of_decide_eq_true h12
    cases st with
    | done o => simp [Step.drawn] at hx
    | eff e =>
      obtain ⟨e, r⟩ := e
      cases e <;> try (simp [Step.drawn] at hx; done)
      rename_i n
      rcases htr m i n r hm with rfl | ⟨b, hb, rfl⟩
      · simp [Step.drawn] at hx
      · simp only [Step.drawn, List.mem_singleton] at hx
        subst hx
        refine ⟨b, hb, ?_⟩
        have hn : 12 ≤ n := by rw [(cut b n).2] at h12; exact h12
        rw [cut_val (n := 12) b (by omega)]
        show ((b.1 ++ List.replicate n 0).take n).take 12 = _
        rw [List.take_take, min_eq_left hn, List.take_append_of_le_length (by rw [b.2]; omega)]
  refine ⟨fun x _ => ?_, List.pairwise_iff_getElem.mpr fun m m' hm hm' hlt x hx hx' => ?_⟩
  · refine List.Nodup.filter _ ?_
    unfold Step.drawn
    split <;> simp
  · obtain ⟨b, hb, e⟩ := key m _ _ x (List.getElem?_eq_getElem hm) hx
    obtain ⟨b', hb', e'⟩ := key m' _ _ x (List.getElem?_eq_getElem hm') hx'
    have := map_apart hn.1 hb hb' (Subtype.ext (e.symm.trans e'))
    omega

/-- C113, of C69: calls that never conflict are linearizable, but for this chance.  Which calls are made, when, and how the environment
answers may depend on all the random bytes. -/
theorem C113_linearizable {P : Prims} (L : P.Laws) {d : D1} {who : GoString → Option Identity → Prop} (hid : IdpTells d who) {v : Vault} {w : World}
    (hR : Rel P d w.store v) (S : List Oid) (hS : ∀ oid dt, w.store oid.1 dt ≠ none → oid ∈ S) (T : Nat) :
    odds T (VaultFails P d who w v T) ≤ (T * S.length + T * (T - 1) / 2) / 2 ^ 122 := by
  refine (odds_mono fun l hl h hn => ?_).trans (C113_ids w.store S hS w.t T)
  obtain ⟨env, calls, sch, h1, h2, h3, h4⟩ := h
  exact h4 (C69_linearizable L (env := env.reeled w.t l) (fun t => h1 t) hid hR calls sch (fun t b ht ht' hb => ⟨(hn env t b ht (by omega) hb).1,
    fun t' b' x y => (hn env t b ht (by omega) hb).2 t' b' x (by omega)⟩) h3)

/-- C113, of C84: no nonce is used twice, but for this chance. -/
theorem C113_nonces {P : Prims} (L : P.Laws) {keys : Keys} {conf : StandaloneConfig} {idp idp' : GoString → Prog Identity} {d : D1} {i : SecureIndex}
    {s : Standalone} (hd : newD1 (.ok keys) idp = .ok d) (hx : newSecureIndex (.ok keys) idp' = .ok i) (hs : newStandalone conf = .ok s)
    (hi : ∀ t, AllEff NoSend (idp t)) (hi' : ∀ t, AllEff NoSend (idp' t)) (T : Nat) :
    odds T (NonceTwice P d i s) ≤ T * (T - 1) / 2 / 256 ^ 12 := by
  refine (odds_mono fun l _ h hn => ?_).trans (C113_draws T)
  obtain ⟨calls, tr, h1, h2, a, b, o, o', c, c', hab, ho, ho', hc, hc', e⟩ := h
  exact C84_no_nonce_twice L hd hx hs hi hi' h2 (hn tr h1) hab ho ho' hc hc' e

/-! ## Cases -/

/-- A store with one object: for 2^40 steps of any calls, the chance is at most 1/2^42. -/
theorem C113_case : odds (2 ^ 40) (VaultFails toyPrims toyD1 toyTells toyShared toyVault (2 ^ 40)) ≤ 1 / 2 ^ 42 := by
  refine (C113_linearizable toyLaws toyD1_tells toyVault_rel [nilOid] (fun oid dt h => ?_) _).trans ?_
  · simp only [toyShared] at h
    by_cases e : oid.1 = nilOid.1
    · exact List.mem_singleton.mpr (Subtype.ext e)
    · exact absurd (by simp [e]) h
  · norm_num

/-- With the same bytes at both of two moments the identifiers are not new, so there is a chance to bound. -/
theorem C113_repeat (b : BytesN 32) : ¬FreshIds (toyEnv.reeled 0 [b, b]) (fun _ _ => none) 0 2 := fun h =>
  (h 0 (cut b 16) (Nat.le_refl 0) (by omega) rfl).2 1 (cut b 16) (by omega) (by omega) rfl rfl

/-- Encrypt gives an object the identifier made of the bytes of the moment at which it draws it. -/
example (l : List (BytesN 32)) : (newV4.run (toyEnv.reeled 0 l) ⟨fun _ _ => none, 0⟩).1 = .ok (mkV4 (cut (l[0]?.getD noKey) 16)) := rfl

end D1
