import Verif.Props.Blind
import Verif.Props.Stack
import Verif.Props.IndexLeak
/-!
# C93: callers of the index learn nothing about other keywords

documentation/explainer.md:125-126: the total number of pairs, of keywords and of identifiers is hidden from the caller.
-/
namespace D1
open Spec Prog

/-! ## Areas of the store -/

/-- The stores are the same in the area. -/
def AgreeOn (S : Bytes → DataType → Prop) (st st' : Store) : Prop := ∀ x dt, S x dt → st x dt = st' x dt

/-- The effect reads and changes nothing outside the area. -/
def InArea (S : Bytes → DataType → Prop) (e : Eff) : Prop := ∀ x dt, e.entry = some x → e.dataType = some dt → S x dt

/-- The effect changes nothing in the area. -/
def OffArea (S : Bytes → DataType → Prop) (e : Eff) : Prop := ∀ x dt, e.target = some (x, dt) → ¬ S x dt

/-- The environment as those meet it who make the steps at times `f 0`, `f 1`, …; their own clock of steps starts at `t`. -/
def Env.along (env : Env) (f : Nat → Nat) (t : Nat) : Env where
  rand n := env.rand (f (n - t))
  now n := env.now (f (n - t))
  fault n := env.fault (f (n - t))

section
variable {S : Bytes → DataType → Prop}

theorem AgreeOn.set {st st' : Store} (h : AgreeOn S st st') (x : Bytes) (dt : DataType) (v : Option Bytes) : AgreeOn S (st.set x dt v) (st'.set x dt v) := by
  intro y dt' hy
  simp only [Store.set]
  split
  · rfl
  · exact h y dt' hy

theorem area_store {st st' : Store} {rnd : (n : Nat) → Option (BytesN n)} {clk : GoTime} {e : Eff} (he : InArea S e) (h : AgreeOn S st st') :
    (st.exec rnd clk e).1 = (st'.exec rnd clk e).1 ∧ AgreeOn S (st.exec rnd clk e).2 (st'.exec rnd clk e).2 := by
  cases e with
  | put x dt b =>
    simp only [Store.exec, ← h x dt (he x dt rfl rfl)]
    cases st x dt with
    | none => exact ⟨rfl, h.set _ _ _⟩
    | some _ => exact ⟨rfl, h⟩
  | get x dt =>
    simp only [Store.exec, ← h x dt (he x dt rfl rfl)]
    cases st x dt <;> exact ⟨rfl, h⟩
  | update x dt b =>
    simp only [Store.exec, ← h x dt (he x dt rfl rfl)]
    cases st x dt with
    | none => exact ⟨rfl, h⟩
    | some _ => exact ⟨rfl, h.set _ _ _⟩
  | delete x dt => exact ⟨rfl, h.set _ _ _⟩
  | rand n => exact ⟨rfl, h⟩
  | now => exact ⟨rfl, h⟩

theorem area_exec {env : Env} {t : Nat} {st st' : Store} {e : Eff} (he : InArea S e) (h : AgreeOn S st st') :
    ((⟨st, t⟩ : World).exec env e).1 = ((⟨st', t⟩ : World).exec env e).1 ∧
      AgreeOn S ((⟨st, t⟩ : World).exec env e).2.store ((⟨st', t⟩ : World).exec env e).2.store := by
  obtain ⟨h1, h2⟩ := area_store (rnd := env.rand t) (clk := env.now t) he h
  simp only [World.exec]
  cases env.fault t <;> simp only [h1, true_and] <;> first | exact h2 | exact h

theorem off_exec {env : Env} {w : World} {st' : Store} {e : Eff} (he : OffArea S e) (h : AgreeOn S w.store st') : AgreeOn S (w.exec env e).2.store st' := by
  intro x dt hx
  rw [exec_frame fun ht => he x dt ht hx]
  exact h x dt hx

theorem exec_at {env env' : Env} {st : Store} {t t' : Nat} (h1 : env.rand t = env'.rand t') (h2 : env.now t = env'.now t') (h3 : env.fault t = env'.fault t') (e : Eff) :
    ((⟨st, t⟩ : World).exec env e).1 = ((⟨st, t'⟩ : World).exec env' e).1 ∧
      ((⟨st, t⟩ : World).exec env e).2.store = ((⟨st, t'⟩ : World).exec env' e).2.store := by
  simp only [World.exec, h1, h2, h3]
  cases env'.fault t' <;> exact ⟨rfl, rfl⟩

theorem performed_congr {α : Type} {env env' : Env} (sch : List Nat) {w : World} {ps : List (Prog α)} (h : AgreeFrom w.t env env') :
    performed env sch w ps = performed env' sch w ps := by
  induction sch generalizing w ps with
  | nil => rfl
  | cons j r ih =>
    simp only [performed]
    split
    · next e k he =>
      rw [exec_congr h e, ih (w := (w.exec env' e).2) (ps := ps.set j (k (w.exec env' e).1)) fun t ht => h t (by rw [exec_time] at ht; omega)]
    · exact ih h

/-- A step that is no step. -/
theorem idle_step {α : Type} {env : Env} {j : Nat} {r : List Nat} {w : World} {ps : List (Prog α)} (h : ∀ e k, ps[j]? ≠ some (.op e k)) :
    commits env (j :: r) w ps = commits env r w ps ∧ performed env (j :: r) w ps = performed env r w ps ∧ sched env (j :: r) w ps = sched env r w ps := by
  simp only [commits, performed, sched]
  cases hj : ps[j]? with
  | none => simp
  | some p =>
    cases p with
    | op e k => exact absurd hj (h e k)
    | _ => simp

/-- Those who stay in an area that nobody else changes go on as if nobody else were there. -/
theorem area_alone {α : Type} (mine : Nat → Bool) (env : Env) (sch : List Nat) (w : World) (ps : List (Prog α))
    (hm : ∀ j p, ps[j]? = some p → mine j = true → AllEff (InArea S) p) (ho : ∀ j p, ps[j]? = some p → mine j = false → AllEff (OffArea S) p) :
    ∃ f : Nat → Nat, (∀ m n, m < n → f m < f n) ∧ (∀ n, w.t ≤ f n) ∧ ∀ t' st' (qs : List (Prog α)), AgreeOn S w.store st' → (∀ j, mine j = true → qs[j]? = ps[j]?) →
      (commits env sch w ps).filter (fun x => mine x.1) = commits (env.along f t') (sch.filter mine) ⟨st', t'⟩ qs ∧
      (performed env sch w ps).filter (fun x => mine x.1) = performed (env.along f t') (sch.filter mine) ⟨st', t'⟩ qs ∧
      AgreeOn S (sched env sch w ps).1.store (sched (env.along f t') (sch.filter mine) ⟨st', t'⟩ qs).1.store := by
  induction sch generalizing w ps with
  | nil => exact ⟨fun n => w.t + n, fun m n h => Nat.add_lt_add_left h _, fun n => Nat.le_add_right _ _, fun t' st' qs h _ => ⟨rfl, rfl, h⟩⟩
  | cons j r ih =>
    by_cases hop : ∃ e k, ps[j]? = some (.op e k)
    · obtain ⟨e, k, hj⟩ := hop
      have hm' : mine j = true → ∀ x, ∀ j' p, (ps.set j (k x))[j']? = some p → mine j' = true → AllEff (InArea S) p := by
        intro hmj x j' p hp hmine
        rw [List.getElem?_set] at hp
        split at hp
        · split at hp
          · cases hp; exact (hm j _ hj hmj).2 x
          · cases hp
        · exact hm j' p hp hmine
      have ho' : mine j = false → ∀ x, ∀ j' p, (ps.set j (k x))[j']? = some p → mine j' = false → AllEff (OffArea S) p := by
        intro hmj x j' p hp hmine
        rw [List.getElem?_set] at hp
        split at hp
        · split at hp
          · cases hp; exact (ho j _ hj hmj).2 x
          · cases hp
        · exact ho j' p hp hmine
      have keep : ∀ b, mine j = b → ∀ x, ∀ j' p, (ps.set j (k x))[j']? = some p → mine j' = !b → ps[j']? = some p := by
        intro b hmj x j' p hp hmine
        rw [List.getElem?_set] at hp
        split at hp
        · next h => subst h; rw [hmj] at hmine; cases b <;> cases hmine
        · exact hp
      cases hmj : mine j with
      | false =>
        obtain ⟨f, hf1, hf2, hf⟩ := ih (w.exec env e).2 (ps.set j (k (w.exec env e).1))
          (fun j' p hp h => hm j' p (keep false hmj _ j' p hp h) h) (ho' hmj _)
        rw [exec_time] at hf2
        refine ⟨f, hf1, fun n => by have := hf2 n; omega, fun t' st' qs hst hqs => ?_⟩
        obtain ⟨h1, h2, h3⟩ := hf t' st' qs (off_exec ((ho j _ hj hmj).1) hst) (fun j' hj' => by
          rw [hqs j' hj', List.getElem?_set_ne]
          rintro rfl
          rw [hmj] at hj'; cases hj')
        rw [List.filter_cons_of_neg (by simp [hmj])]
        simp only [commits, performed, sched, hj]
        refine ⟨?_, by rw [List.filter_cons_of_neg (by simp [hmj])]; exact h2, h3⟩
        rw [← h1]
        cases (k (w.exec env e).1).outcome with
        | none => rfl
        | some o => exact List.filter_cons_of_neg (by simp [hmj])
      | true =>
        obtain ⟨f, hf1, hf2, hf⟩ := ih (w.exec env e).2 (ps.set j (k (w.exec env e).1)) (hm' hmj _)
          (fun j' p hp h => ho j' p (keep true hmj _ j' p hp h) h)
        rw [exec_time] at hf2
        refine ⟨fun n => if n = 0 then w.t else f (n - 1), ?_, ?_, fun t' st' qs hst hqs => ?_⟩
        · intro m n hmn
          have := hf2 (n - 1)
          by_cases hm0 : m = 0
          · simp only [hm0, if_true, if_neg (show ¬ n = 0 by omega)]; omega
          · simp only [if_neg hm0, if_neg (show ¬ n = 0 by omega)]
            exact hf1 _ _ (by omega)
        · intro n
          have := hf2 (n - 1)
          simp only
          split <;> omega
        generalize henv' : env.along (fun n => if n = 0 then w.t else f (n - 1)) t' = env'
        have hag : AgreeFrom (t' + 1) env' (env.along f (t' + 1)) := by
          intro n hn
          have e1 : ¬ n - t' = 0 := by omega
          have e2 : n - t' - 1 = n - (t' + 1) := by omega
          subst henv'
          simp only [Env.along, if_neg e1, e2, and_self]
        have hat := exec_at (env := env) (env' := env') (st := st') (t := w.t) (t' := t') (by subst henv'; simp [Env.along]) (by subst henv'; simp [Env.along])
          (by subst henv'; simp [Env.along]) e
        obtain ⟨a1, a2⟩ := area_exec (env := env) (t := w.t) ((hm j _ hj hmj).1) hst
        have b1 : (w.exec env e).1 = ((⟨st', t'⟩ : World).exec env' e).1 := a1.trans hat.1
        have b2 : AgreeOn S (w.exec env e).2.store ((⟨st', t'⟩ : World).exec env' e).2.store := hat.2 ▸ a2
        have hqj : qs[j]? = some (.op e k) := (hqs j hmj).trans hj
        obtain ⟨h1, h2, h3⟩ := hf (t' + 1) ((⟨st', t'⟩ : World).exec env' e).2.store (qs.set j (k (w.exec env e).1)) b2 (fun j' hj' => by
          rw [List.getElem?_set, List.getElem?_set, hqs j' hj']
          split
          · next h =>
            subst h
            rw [if_pos (List.getElem?_eq_some_iff.mp hj).1, if_pos (List.getElem?_eq_some_iff.mp hqj).1]
          · rfl)
        have hw : (⟨((⟨st', t'⟩ : World).exec env' e).2.store, t' + 1⟩ : World) = ((⟨st', t'⟩ : World).exec env' e).2 := by
          have := exec_time env' ⟨st', t'⟩ e
          generalize (World.exec env' ⟨st', t'⟩ e).2 = w2 at this ⊢
          cases w2
          simp_all
        have hag' : AgreeFrom ((⟨st', t'⟩ : World).exec env' e).2.t env' (env.along f (t' + 1)) := by rw [exec_time]; exact hag
        rw [hw, b1] at h1 h2 h3
        rw [← (sched_congr _ hag').2] at h1
        rw [← performed_congr _ hag'] at h2
        rw [← (sched_congr _ hag').1] at h3
        rw [List.filter_cons_of_pos hmj]
        simp only [commits, performed, sched, hj, hqj, b1]
        refine ⟨?_, by rw [List.filter_cons_of_pos (by exact hmj), h2], h3⟩
        rw [← h1]
        cases (k ((⟨st', t'⟩ : World).exec env' e).1).outcome with
        | none => rfl
        | some o => exact List.filter_cons_of_pos (by exact hmj)
    · have hno : ∀ e k, ps[j]? ≠ some (.op e k) := fun e k h => hop ⟨e, k, h⟩
      obtain ⟨f, hf1, hf2, hf⟩ := ih w ps hm ho
      refine ⟨f, hf1, hf2, fun t' st' qs hst hqs => ?_⟩
      obtain ⟨h1, h2, h3⟩ := hf t' st' qs hst hqs
      rw [(idle_step hno).1, (idle_step hno).2.1, (idle_step hno).2.2]
      cases hmj : mine j with
      | false => rw [List.filter_cons_of_neg (by simp [hmj])]; exact ⟨h1, h2, h3⟩
      | true =>
        have hno' : ∀ e k, qs[j]? ≠ some (.op e k) := fun e k h => hno e k ((hqs j hmj).symm.trans h)
        rw [List.filter_cons_of_pos hmj, (idle_step hno').1, (idle_step hno').2.1, (idle_step hno').2.2]
        exact ⟨h1, h2, h3⟩

end

/-! ## The records of keywords -/

/-- The label of a node of one of these keywords. -/
def LabelOf (P : Prims) (i : SecureIndex) (K : GoString → Bool) (x : Bytes) : Prop := ∃ kw c, K kw = true ∧ x = ixLabel P i kw c

/-- The stores are the same, but for index nodes of other keywords: there may be any number of them, under any labels, with any contents. -/
def SameFor (P : Prims) (i : SecureIndex) (K : GoString → Bool) (st st' : Store) : Prop :=
  ∀ x dt, (dt = dtNode → LabelOf P i K x) → st x dt = st' x dt

section
variable {P : Prims} (L : P.Laws) {d : D1} {i : SecureIndex} {s : Standalone} (hk : i.indexKey.length = 32)
variable {Q : Eff → Prop} {kw : GoString}

include L in
theorem allEff_nextOf (h : ∀ c, Q (.get (ixLabel P i kw c) dtNode)) (n : Node) : AllEff Q (getNextNode P n (ixTagger P i kw) (ixCryptor P i kw)) := by
  rw [getNextNode_eq L]
  exact ⟨h _, fun r => allEff_ofExcept _⟩

include L in
/-- The body of a call touches the nodes of its keyword only. -/
theorem allEff_ixBody {c : IxCall} (hr : ∀ n, Q (.rand n)) (h : ∀ e n, e.entry = some (ixLabel P i c.keyword n) → e.dataType = some dtNode → Q e) (fuel : Nat) :
    AllEff Q (ixBody P i fuel c) := by
  cases c with
  | add t kw x =>
    have hl : ∀ n, AllEff Q (getLastNodeLoop P (ixTagger P i kw) (ixCryptor P i kw) fuel n) := by
      induction fuel with
      | zero => intro n; trivial
      | succ fuel ih =>
        intro n
        refine AllEff.attempt (allEff_nextOf L (fun c => h _ c rfl rfl) n) fun r => ?_
        rcases r with e | a
        · cases e <;> trivial
        · exact ih a
    exact AllEff.bind (AllEff.bind (hl _) fun last => AllEff.bind (AllEff.bind (allEff_encrypt hr _ _ _) fun _ => trivial) fun _ =>
      allEff_ioPut (h _ last.nextCounter rfl rfl)) fun _ => trivial
  | search t kw =>
    have hl : ∀ n l, AllEff Q (searchLoop P (ixTagger P i kw) (ixCryptor P i kw) fuel n l) := by
      induction fuel with
      | zero => intro n l; trivial
      | succ fuel ih =>
        intro n l
        refine AllEff.attempt (allEff_nextOf L (fun c => h _ c rfl rfl) n) fun r => ?_
        rcases r with e | a
        · cases e <;> trivial
        · exact ih a _
    exact AllEff.bind (hl _ _) fun _ => trivial
  | delete t kw x =>
    have hd : ∀ n m, AllEff Q (deleteNode P (ixLabel P i kw m) n (ixTagger P i kw) (ixCryptor P i kw)) := by
      intro n m
      refine AllEff.attempt (allEff_nextOf L (fun c => h _ c rfl rfl) n) fun r => ?_
      rcases r with e | a
      · cases e <;> first | trivial | exact allEff_ioDelete (h _ m rfl rfl)
      · refine AllEff.bind (AllEff.bind (allEff_encrypt hr _ _ _) fun _ => trivial) fun _ => AllEff.bind (allEff_ioUpdate (h _ m rfl rfl)) fun _ => ?_
        simp only [nextLabel_eq L, ofPanic_some, bind_eq, ret_bind]
        exact allEff_ioDelete (h _ n.nextCounter rfl rfl)
    have hl : ∀ n, AllEff Q (deleteLoop P (ixTagger P i kw) (ixCryptor P i kw) x fuel n) := by
      induction fuel with
      | zero => intro n; trivial
      | succ fuel ih =>
        intro n
        refine AllEff.attempt (allEff_nextOf L (fun c => h _ c rfl rfl) n) fun r => ?_
        rcases r with e | a
        · cases e <;> trivial
        · simp only [nextLabel_eq L, ofPanic_some, bind_eq, ret_bind]
          split
          · exact AllEff.bind (hd _ _) fun _ => ih n
          · exact ih a
    exact AllEff.bind (hl _) fun _ => trivial

include L hk in
theorem allEff_ixProg {c : IxCall} (hi : AllEff Q (i.idProvider c.token)) (hr : ∀ n, Q (.rand n))
    (h : ∀ e n, e.entry = some (ixLabel P i c.keyword n) → e.dataType = some dtNode → Q e) (fuel : Nat) : AllEff Q (ixProg P i fuel c) := by
  rw [ixProg_eq L hk]
  exact AllEff.bind (allEff_ixVerifyAccess hi) fun _ => allEff_ixBody L hr h fuel

/-- Any other call has nothing to do with the nodes of the index. -/
theorem noNode_answer (hd : d.idProvider = s.getIdentity P) {c : ApiCall} (hc : ∀ fuel c', c ≠ .index fuel c') :
    AllEff (fun e => e.dataType ≠ some dtNode) (answerProg P d i s c) := by
  have hr : ∀ n, (Eff.rand n).dataType ≠ some dtNode := fun n => by simp [Eff.dataType]
  have hn : Eff.now.dataType ≠ some dtNode := by simp [Eff.dataType]
  have u : ∀ {e : Eff}, e.dataType = some dtUser → e.dataType ≠ some dtNode := fun h => by rw [h]; decide
  have g : ∀ {e : Eff}, e.dataType = some dtGroup → e.dataType ≠ some dtNode := fun h => by rw [h]; decide
  have hid : ∀ t, AllEff (fun e => e.dataType ≠ some dtNode) (s.getIdentity P t) := fun t => allEff_getIdentity hn (fun _ => u rfl) (fun _ => g rfl) t
  cases c with
  | d1 c =>
    refine AllEff.bind (allEff_call c (hd ▸ hid _) hr fun e dt h1 h2 _ => ?_) fun _ => trivial
    rw [h1]
    rcases h2 with rfl | rfl <;> decide
  | createToken p =>
    exact AllEff.bind (AllEff.bind (AllEff.bind (allEff_now hn) fun _ => trivial) fun _ => AllEff.bind (allEff_encrypt hr _ _ _) fun _ => trivial) fun _ => trivial
  | tokenContents t => exact AllEff.bind (AllEff.bind (allEff_tokenUnseal hn _ _) fun _ => trivial) fun _ => trivial
  | index fuel c => exact absurd rfl (hc fuel c)
  | dir c =>
    cases c with
    | newUser sc => exact AllEff.bind (AllEff.bind (allEff_newUser hr (fun _ _ => u rfl) (fun _ _ => u rfl) sc) fun _ => trivial) fun _ => trivial
    | loginUser uid p => exact AllEff.bind (allEff_loginUser hr hn (u rfl) p) fun _ => trivial
    | changePassword uid p =>
      exact AllEff.bind (AllEff.bind (allEff_changeUserPassword hr (u rfl) (fun _ => u rfl) (fun _ => u rfl) p) fun _ => trivial) fun _ => trivial
    | newGroup t sc =>
      exact AllEff.bind (AllEff.bind (allEff_newGroup hr hn (fun _ => u rfl) (fun _ => g rfl) (fun _ _ => u rfl) (fun _ _ => u rfl) (fun _ _ => g rfl) t sc) fun _ => trivial) fun _ => trivial
    | addUser t uid gs =>
      exact AllEff.bind (AllEff.bind (allEff_addUserToGroups hr hn (fun _ => u rfl) (fun _ => g rfl) (fun _ => u rfl) (fun _ => u rfl) t gs) fun _ => trivial) fun _ => trivial
    | removeUser t uid gs =>
      exact AllEff.bind (AllEff.bind (allEff_removeUserFromGroups hr hn (fun _ => u rfl) (fun _ => g rfl) (fun _ => u rfl) (fun _ => u rfl) t gs) fun _ => trivial) fun _ => trivial
    | deleteUser t uid => exact AllEff.bind (AllEff.bind (allEff_deleteUser hn (fun _ => u rfl) (fun _ => g rfl) (u rfl) t) fun _ => trivial) fun _ => trivial
    | getIdentity t => exact AllEff.bind (AllEff.bind (hid t) fun _ => trivial) fun _ => trivial

include L hk in
/-- C93: calls about some keywords do not depend on the nodes of other keywords, nor do any other calls.  In every environment (draws,
clocks, failures), for all calls of the library and every schedule: if the index calls among them name keywords in `K` only, the results and the
requests to the IO Provider are the same whatever other nodes the index holds. -/
theorem C93_keywords (hd : d.idProvider = s.getIdentity P) (hi : i.idProvider = s.getIdentity P) {K : GoString → Bool} (env : Env) {st st' : Store} {t : Nat}
    (hst : SameFor P i K st st') (calls : List ApiCall) (hc : ∀ fuel c, .index fuel c ∈ calls → K c.keyword = true) (sch : List Nat) :
    commits env sch ⟨st, t⟩ (calls.map (answerProg P d i s)) = commits env sch ⟨st', t⟩ (calls.map (answerProg P d i s)) ∧
    performed env sch ⟨st, t⟩ (calls.map (answerProg P d i s)) = performed env sch ⟨st', t⟩ (calls.map (answerProg P d i s)) ∧
    SameFor P i K (sched env sch ⟨st, t⟩ (calls.map (answerProg P d i s))).1.store (sched env sch ⟨st', t⟩ (calls.map (answerProg P d i s))).1.store := by
  have key := InStep.sched (env := env) (lo := t) (H := AgreeOn fun x dt => dt = dtNode → LabelOf P i K x) (E := Eq) (R := fun _ => Same Eq) sch
    (w := ⟨st, t⟩) (w' := ⟨st', t⟩) (ps := calls.map (answerProg P d i s)) (ps' := calls.map (answerProg P d i s)) le_rfl rfl hst rfl fun j p p' hp hp' => by
      obtain rfl : p = p' := Option.some.inj (hp.symm.trans hp')
      rw [List.getElem?_map, Option.map_eq_some_iff] at hp
      obtain ⟨c, hj, rfl⟩ := hp
      have hmem := List.mem_of_getElem? hj
      refine inStep_same (A := InArea fun x dt => dt = dtNode → LabelOf P i K x) (fun _ _ => rfl) (fun _ he _ _ _ _ h => area_exec he h) ?_
      by_cases hx : ∃ fuel c', c = .index fuel c'
      · obtain ⟨fuel, c, rfl⟩ := hx
        have hno : ∀ {e : Eff} {dt : DataType}, e.dataType = some dt → dt ≠ dtNode → InArea (fun x dt => dt = dtNode → LabelOf P i K x) e := by
          intro e dt h1 h2 x dt' _ h3 h4
          rw [h1, Option.some.injEq] at h3
          exact absurd (h3.trans h4) h2
        refine AllEff.bind (allEff_ixProg L hk ?_ (fun n x dt h => by cases h) (fun e n h1 h2 x dt h3 h4 _ => ?_) fuel) fun _ => trivial
        · rw [hi]
          exact allEff_getIdentity (fun x dt h => by cases h) (fun _ => hno rfl (by decide)) (fun _ => hno rfl (by decide)) _
        · rw [h1, Option.some.injEq] at h3
          exact ⟨c.keyword, n, hc fuel c hmem, h3.symm⟩
      · exact (noNode_answer hd fun fuel c' h => hx ⟨fuel, c', h⟩).mono fun e h x dt _ h1 h2 => absurd (h1.trans (congrArg some h2)) h
  obtain ⟨h1, h2, h3⟩ := key
  exact ⟨forall₂_eq (fun _ _ => same_eq) h2, forall₂_eq (fun _ _ h => h) h3, h1⟩

/-- The call is an index call about one of these keywords. -/
def ApiCall.about (K : GoString → Bool) : ApiCall → Bool
  | .index _ c => K c.keyword
  | _ => false

/-- The call is one of D1, or an index call about a keyword whose labels are not labels of keywords in `K`. -/
def Unrelated (P : Prims) (i : SecureIndex) (K : GoString → Bool) : ApiCall → Prop
  | .index _ c => ∀ n, ¬ LabelOf P i K (ixLabel P i c.keyword n)
  | .dir _ => False
  | _ => True

include L hk in
/-- C93: what others do meanwhile makes no difference either.  In every execution with calls about keywords in `K` and, interleaved with
them, other calls (any of D1, and index calls about other keywords), the former get the results and send the requests that they would get and send
alone, in an environment that gives them the draws, times and failures they met; on any store with the same users, groups and nodes of `K`. -/
theorem C93_undisturbed (hd : d.idProvider = s.getIdentity P) (hi : i.idProvider = s.getIdentity P) {K : GoString → Bool} (env : Env) (w : World)
    (calls : List ApiCall) (hc : ∀ c ∈ calls, c.about K = true ∨ Unrelated P i K c) (sch : List Nat) :
    let ps := calls.map (answerProg P d i s)
    let mine := fun j => (calls[j]?.any (ApiCall.about K))
    ∃ f : Nat → Nat, (∀ m n, m < n → f m < f n) ∧ (∀ n, w.t ≤ f n) ∧
      ∀ t' st' qs, (∀ x dt, dt = dtUser ∨ dt = dtGroup ∨ dt = dtNode ∧ LabelOf P i K x → w.store x dt = st' x dt) →
      (∀ j, mine j = true → qs[j]? = ps[j]?) →
      (commits env sch w ps).filter (fun x => mine x.1) = commits (env.along f t') (sch.filter mine) ⟨st', t'⟩ qs ∧
      (performed env sch w ps).filter (fun x => mine x.1) = performed (env.along f t') (sch.filter mine) ⟨st', t'⟩ qs := by
  intro ps mine
  have hid : ∀ {Q : Eff → Prop} (t : GoString), Q .now → (∀ x, Q (.get x dtUser)) → (∀ x, Q (.get x dtGroup)) → AllEff Q (s.getIdentity P t) :=
    fun t h1 h2 h3 => allEff_getIdentity h1 h2 h3 t
  obtain ⟨f, h1, h2, h3⟩ := area_alone (S := fun x dt => dt = dtUser ∨ dt = dtGroup ∨ dt = dtNode ∧ LabelOf P i K x) mine env sch w ps (by
      intro j p hp hm
      simp only [ps, List.getElem?_map, Option.map_eq_some_iff] at hp
      obtain ⟨c, hj, rfl⟩ := hp
      simp only [mine, hj, Option.any_some] at hm
      cases c with
      | index fuel c =>
        have hu : ∀ x, InArea (fun x dt => dt = dtUser ∨ dt = dtGroup ∨ dt = dtNode ∧ LabelOf P i K x) (.get x dtUser) := fun x y dt _ h => by cases h; exact .inl rfl
        have hg : ∀ x, InArea (fun x dt => dt = dtUser ∨ dt = dtGroup ∨ dt = dtNode ∧ LabelOf P i K x) (.get x dtGroup) := fun x y dt _ h => by cases h; exact .inr (.inl rfl)
        refine AllEff.bind (allEff_ixProg L hk (hi ▸ hid _ (fun x dt h => by cases h) hu hg) (fun n x dt h => by cases h)
          (fun e n h1 h2 x dt h3 h4 => ?_) fuel) fun _ => trivial
        rw [h1, Option.some.injEq] at h3
        rw [h2, Option.some.injEq] at h4
        exact .inr (.inr ⟨h4.symm, _, n, hm, h3.symm⟩)
      | _ => cases hm) (by
      intro j p hp hm
      simp only [ps, List.getElem?_map, Option.map_eq_some_iff] at hp
      obtain ⟨c, hj, rfl⟩ := hp
      simp only [mine, hj, Option.any_some] at hm
      have hu := (hc c (List.mem_of_getElem? hj)).resolve_left (by rw [hm]; decide)
      have hget : ∀ y dt', OffArea (fun x dt => dt = dtUser ∨ dt = dtGroup ∨ dt = dtNode ∧ LabelOf P i K x) (.get y dt') := fun y dt' x dt h => by cases h
      cases c with
      | d1 c =>
        refine AllEff.bind (allEff_call c (hd ▸ hid _ (fun x dt h => by cases h) (fun x => hget _ _) fun x => hget _ _) (fun n x dt h => by cases h) ?_) fun _ => trivial
        intro e dt h1 h2 _ x dt' h3 h4
        have h5 : dt = dt' := by cases e <;> simp_all [Eff.target, Eff.dataType]
        subst h5
        rcases h2 with rfl | rfl <;> rcases h4 with h4 | h4 | h4 <;> first | exact absurd h4 (by decide) | exact absurd h4.1 (by decide)
      | createToken p =>
        exact AllEff.bind (AllEff.bind (AllEff.bind (allEff_now (fun x dt h => by cases h)) fun _ => trivial) fun _ =>
          AllEff.bind (allEff_encrypt (fun n x dt h => by cases h) _ _ _) fun _ => trivial) fun _ => trivial
      | tokenContents t => exact AllEff.bind (AllEff.bind (allEff_tokenUnseal (fun x dt h => by cases h) _ _) fun _ => trivial) fun _ => trivial
      | index fuel c =>
        refine AllEff.bind (allEff_ixProg L hk (hi ▸ hid _ (fun x dt h => by cases h) (fun x => hget _ _) fun x => hget _ _) (fun n x dt h => by cases h)
          (fun e n h1 h2 x dt h3 h4 => ?_) fuel) fun _ => trivial
        have h5 : dt = dtNode ∧ x = ixLabel P i c.keyword n := by cases e <;> simp_all [Eff.target, Eff.dataType, Eff.entry]
        obtain ⟨rfl, rfl⟩ := h5
        rcases h4 with h4 | h4 | h4
        · exact absurd h4 (by decide)
        · exact absurd h4 (by decide)
        · exact hu n h4.2
      | dir c => exact hu.elim)
  refine ⟨f, h1, h2, fun t' st' qs hst hqs => ?_⟩
  obtain ⟨h4, h5, -⟩ := h3 t' st' qs hst hqs
  exact ⟨h4, h5⟩

end
/-! ## A case -/

/-- A sponge whose labels show their keyword and counter. -/
def openSponge (_ : Nat) (x : Bytes) (n : Nat) : Bytes :=
  (((x.reverse.getD 3 0 + x.reverse.getD 133 0) :: x.drop 8) ++ List.replicate n 0).take n

def openPrims : Prims := toyPrims.withSponge openSponge

theorem openLaws : openPrims.Laws := withSponge_laws toyLaws fun _ _ _ => by simp [openSponge]; omega

def openIndex : SecureIndex := { toyIndex with idProvider := toyStandalone.getIdentity openPrims }
def openD1 : D1 := { toyD1 with idProvider := toyStandalone.getIdentity openPrims }

theorem openLabel (kw : GoString) (c : Nat) : (ixLabel openPrims openIndex kw c).head? =
    some ((bytepad (leftEncode 256 ++ openSponge 136 (taggerInput openIndex kw) 32) 136 ++ rightEncode 256).reverse.getD 3 0 +
      (bytepad (leftEncode 256 ++ openSponge 136 (taggerInput openIndex kw) 32) 136 ++ rightEncode 256).reverse.getD 133 0) := by
  have hl : (openSponge 136 (taggerInput openIndex kw) 32).length = 32 := by simp [openSponge]
  generalize hk : openSponge 136 (taggerInput openIndex kw) 32 = k at hl
  have hin : ∃ a, labelInput openPrims openIndex kw c = a ++ (bytepad (leftEncode 256 ++ k) 136 ++ rightEncode 256) := by
    rw [labelInput, show openPrims.sponge = openSponge from rfl, hk, kmacInput, hl, List.append_nil, List.append_assoc]
    exact ⟨_, rfl⟩
  obtain ⟨a, ha⟩ := hin
  have hlen : (bytepad (leftEncode 256 ++ k) 136 ++ rightEncode 256).reverse.length = 139 := by
    have h1 : (leftEncode 256).length = 3 := by decide
    have h2 : (rightEncode 256).length = 3 := by decide
    have h3 : (leftEncode 136).length = 2 := by decide
    simp [bytepad, hl, h1, h2, h3]
  rw [ixLabel, show openPrims.sponge = openSponge from rfl, ha]
  generalize bytepad (leftEncode 256 ++ k) 136 ++ rightEncode 256 = b at hlen
  simp only [openSponge, List.reverse_append, List.cons_append, List.take_succ_cons, List.head?_cons, Option.some.injEq]
  simp only [List.getD_eq_getElem?_getD]
  rw [List.getElem?_append_left (by omega), List.getElem?_append_left (by omega)]

theorem open_unrelated (t x : GoString) (fuel : Nat) : Unrelated openPrims openIndex (· == [107]) (.index fuel (.add t [108] x)) := by
  rintro n ⟨kw, c, hkw, h⟩
  obtain rfl : kw = [107] := by simpa using hkw
  have h1 := openLabel [107] c
  rw [← h, show (IxCall.add t [108] x).keyword = [108] from rfl, openLabel [108] n] at h1
  revert h1
  decide +kernel

/-- What a search has found. -/
def found : Outcome LibRes → Option (List GoString)
  | .ok (.index (.ids l)) => some l
  | _ => none

/-- C93, a concrete case: user 7 adds `x` under `k` and searches for `k` while user 8 adds `y` under `l`. -/
theorem C93_case : ∃ (calls : List ApiCall) (sch : List Nat),
    (∀ c ∈ calls, c.about (· == [107]) = true ∨ Unrelated openPrims openIndex (· == [107]) c) ∧
    (commits toyEnv sch toyDir (calls.map (answerProg openPrims openD1 openIndex toyStandalone))).map (fun x => (x.1, found x.2)) =
      [(0, none), (1, none), (2, some [[120]])] :=
  ⟨[.index 9 (.add (toyToken [7]) [107] [120]), .index 9 (.add (toyToken [8]) [108] [121]), .index 9 (.search (toyToken [7]) [107])],
    [0, 1, 0, 1, 0, 1, 0, 1, 0, 1, 0, 1, 0, 1] ++ List.replicate 5 2,
    by
      intro c hc
      simp only [List.mem_cons, List.not_mem_nil, or_false] at hc
      rcases hc with rfl | rfl | rfl
      · exact .inl (by decide)
      · exact .inr (open_unrelated _ _ _)
      · exact .inl (by decide), by decide +kernel⟩

end D1
