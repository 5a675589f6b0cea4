import Verif.Model.Loggers
import Verif.Props.Heap
/-!
# C94: the fields of one call's log do not show up elsewhere

`CopyCtxLogger` is there so as not to "pollute the caller's log context" (log/log.go:24-25).  It copies a slice, not the
bytes it refers to.
-/
namespace D1

variable {F : Type} {enc : Bytes → F → Bytes}

/-! ## Specification -/

/-- Neither logger has room in an array that the other one refers to. -/
def Slice.Apart (s r : Slice) : Prop :=
  s.cap = 0 ∨ r.cap = 0 ∨ s.arr ≠ r.arr ∨ (s.len = s.cap ∧ r.len = r.cap)

/-- `r` ends before the room behind `s`. -/
def Slice.Behind (r s : Slice) : Prop := r.cap = 0 ∨ s.arr ≠ r.arr ∨ r.off + r.len ≤ s.off + s.len

/-- A call that is about to be made by someone whose logger is `s`. -/
def callWith (s : Slice) (todo : List (LogStep F)) : LogThread F := ⟨s, [], todo⟩

/-- The lines of one call. -/
def linesOfCall (j : Nat) (ls : List (Nat × Bytes)) : List Bytes := (ls.filter fun l => l.1 = j).map (·.2)

/-! ## Appending to one slice -/

theorem Slice.Apart.symm {s r : Slice} (h : s.Apart r) : r.Apart s := by
  rcases h with h | h | h | h
  · exact .inr (.inl h)
  · exact .inl h
  · exact .inr (.inr (.inl (Ne.symm h)))
  · exact .inr (.inr (.inr ⟨h.2, h.1⟩))

theorem Slice.Ok.val_nil {r : Slice} {h : Heap UInt8} (hr : r.Ok h) (hc : r.cap = 0) : r.val h = [] := by
  have := r.val_length h hr
  have := hr.2
  exact List.eq_nil_of_length_eq_zero (by omega)

/-- Slices stay within their arrays. -/
theorem goAppend_ok (spare : Bytes) (h : Heap UInt8) (s r : Slice) (xs : Bytes) (hr : r.Ok h) :
    r.Ok (goAppend spare h s xs).2 := by
  rw [goAppend]
  split
  · refine ⟨?_, hr.2⟩
    show r.off + r.cap ≤ ((h.store s.arr (s.off + s.len) xs).array r.arr).length
    rw [array_store]
    split
    · next hc => rw [overwrite_length', ← hc.1]; exact hr.1
    · exact hr.1
  · refine ⟨?_, hr.2⟩
    by_cases hc : r.cap = 0
    · by_cases ha : r.arr < h.length
      · show _ ≤ (Heap.array (h ++ _) r.arr).length
        rw [array_append h _ _ ha]; exact hr.1
      · have h0 : h.array r.arr = [] := by simp [Heap.array, List.getElem?_eq_none (Nat.not_lt.mp ha)]
        have := hr.1
        rw [h0] at this
        simp only [List.length_nil] at this
        omega
    · show _ ≤ (Heap.array (h ++ _) r.arr).length
      rw [array_append h _ _ (hr.lt (by omega))]; exact hr.1

/-- What lies apart from a slice, or behind it, is not affected when the slice is appended to. -/
theorem goAppend_clear (spare : Bytes) (h : Heap UInt8) (s r : Slice) (xs : Bytes) (hs : s.Ok h) (hr : r.Ok h)
    (hx : 0 < xs.length) (hc : s.Apart r ∨ r.Behind s) :
    r.val (goAppend spare h s xs).2 = r.val h := by
  by_cases h0 : r.cap = 0
  · rw [hr.val_nil h0, (goAppend_ok spare h s r xs hr).val_nil h0]
  by_cases hroom : s.len + xs.length ≤ s.cap
  · refine goAppend_keeps spare h s r xs hs hr hx fun e => ?_
    rcases hc with (hc | hc | hc | hc) | (hc | hc | hc)
    · omega
    · omega
    · exact absurd e.symm hc
    · omega
    · omega
    · exact absurd e.symm hc
    · exact .inl hc
  · rw [goAppend, if_neg hroom]; exact r.val_append h _ hr

theorem goAppend_apart (spare : Bytes) (h : Heap UInt8) (s r : Slice) (xs : Bytes) (hr : r.Ok h)
    (hx : 0 < xs.length) (hc : s.Apart r) : (goAppend spare h s xs).1.Apart r := by
  rw [goAppend]
  split
  · next hroom =>
    rcases hc with hc | hc | hc | hc
    · omega
    · exact .inr (.inl hc)
    · exact .inr (.inr (.inl hc))
    · omega
  · by_cases h0 : r.cap = 0
    · exact .inr (.inl h0)
    · refine .inr (.inr (.inl ?_))
      have := hr.lt (by omega : 0 < r.cap)
      show h.length ≠ r.arr
      omega

theorem goAppend_behind (spare : Bytes) (h : Heap UInt8) (s r : Slice) (xs : Bytes) (hr : r.Ok h)
    (hc : r.Behind s) : r.Behind (goAppend spare h s xs).1 := by
  rw [goAppend]
  split
  · rcases hc with hc | hc | hc
    · exact .inl hc
    · exact .inr (.inl hc)
    · refine .inr (.inr ?_)
      show r.off + r.len ≤ s.off + (s.len + xs.length)
      omega
  · by_cases h0 : r.cap = 0
    · exact .inl h0
    · refine .inr (.inl ?_)
      have := hr.lt (by omega : 0 < r.cap)
      show h.length ≠ r.arr
      omega

/-! ## One call -/

/-- The loggers of a call. -/
def LogThread.stack (t : LogThread F) : List Slice := t.top :: t.below

/-- The loggers of a call lie within their arrays, and those it returns to behind those it uses before. -/
def LogThread.Good (h : Heap UInt8) (t : LogThread F) : Prop :=
  (∀ s ∈ t.stack, s.Ok h) ∧ t.stack.Pairwise fun s r => r.Behind s

/-- No logger of the call disturbs `r`. -/
def LogThread.Clear (t : LogThread F) (r : Slice) : Prop := ∀ s ∈ t.stack, s.Apart r ∨ r.Behind s

/-- What is left of the lines of a call, if loggers were values. -/
def LogThread.plain (enc : Bytes → F → Bytes) (h : Heap UInt8) (t : LogThread F) : List Bytes :=
  plainLines enc (t.top.val h) (t.below.map (·.val h)) t.todo

theorem LogThread.step_ok (h : Heap UInt8) (t : LogThread F) (r : Slice) (hr : r.Ok h) : r.Ok (t.step enc h).1 := by
  obtain ⟨top, below, todo⟩ := t
  cases todo with
  | nil => exact hr
  | cons s todo =>
    cases s with
    | enter => exact hr
    | leave => cases below <;> exact hr
    | field f spare => exact goAppend_ok spare h top r _ hr
    | line own => exact hr

/-- A step leaves alone what the call is clear of. -/
theorem LogThread.step_clear (henc : ∀ b f, enc b f ≠ []) (h : Heap UInt8) (t : LogThread F) (ht : t.Good h) (r : Slice)
    (hr : r.Ok h) (hc : t.Clear r) : r.val (t.step enc h).1 = r.val h ∧ (t.step enc h).2.1.Clear r := by
  obtain ⟨top, below, todo⟩ := t
  cases todo with
  | nil => exact ⟨rfl, hc⟩
  | cons s todo =>
    cases s with
    | enter =>
      refine ⟨rfl, fun s hs => ?_⟩
      rcases List.mem_cons.mp hs with rfl | hs
      · exact hc _ (List.mem_cons_self ..)
      · exact hc _ hs
    | leave =>
      cases below with
      | nil => exact ⟨rfl, hc⟩
      | cons b below => exact ⟨rfl, fun s hs => hc s (List.mem_cons_of_mem _ hs)⟩
    | field f spare =>
      have hx : 0 < (enc (top.val h) f).length := List.length_pos_iff.mpr (henc _ _)
      have h1 := hc top (List.mem_cons_self ..)
      refine ⟨goAppend_clear spare h top r _ (ht.1 _ (List.mem_cons_self ..)) hr hx h1, fun s hs => ?_⟩
      rcases List.mem_cons.mp hs with rfl | hs
      · exact h1.imp (goAppend_apart spare h top r _ hr hx) (goAppend_behind spare h top r _ hr)
      · exact hc s (List.mem_cons_of_mem _ hs)
    | line own => exact ⟨rfl, hc⟩

/-- Loggers that are apart stay apart. -/
theorem LogThread.step_apart (henc : ∀ b f, enc b f ≠ []) (h : Heap UInt8) (t : LogThread F) (r : Slice) (hr : r.Ok h)
    (hc : ∀ s ∈ t.stack, s.Apart r) : ∀ s ∈ (t.step enc h).2.1.stack, s.Apart r := by
  obtain ⟨top, below, todo⟩ := t
  cases todo with
  | nil => exact hc
  | cons s todo =>
    cases s with
    | enter =>
      intro s hs
      rcases List.mem_cons.mp hs with rfl | hs
      · exact hc _ (List.mem_cons_self ..)
      · exact hc _ hs
    | leave =>
      cases below with
      | nil => exact hc
      | cons b below => exact fun s hs => hc s (List.mem_cons_of_mem _ hs)
    | field f spare =>
      intro s hs
      rcases List.mem_cons.mp hs with rfl | hs
      · exact goAppend_apart spare h top r _ hr (List.length_pos_iff.mpr (henc _ _)) (hc top (List.mem_cons_self ..))
      · exact hc s (List.mem_cons_of_mem _ hs)
    | line own => exact hc

/-- A step of a call on its own prints what is meant. -/
theorem LogThread.step_good (henc : ∀ b f, enc b f ≠ []) (h : Heap UInt8) (t : LogThread F) (ht : t.Good h) :
    (t.step enc h).2.1.Good (t.step enc h).1 ∧
      t.plain enc h = (t.step enc h).2.2.toList ++ (t.step enc h).2.1.plain enc (t.step enc h).1 := by
  obtain ⟨top, below, todo⟩ := t
  obtain ⟨h1, h2⟩ := ht
  cases todo with
  | nil => exact ⟨⟨h1, h2⟩, rfl⟩
  | cons s todo =>
    cases s with
    | enter =>
      refine ⟨⟨fun s hs => ?_, ?_⟩, rfl⟩
      · rcases List.mem_cons.mp hs with rfl | hs
        · exact h1 _ (List.mem_cons_self ..)
        · exact h1 _ hs
      · refine List.pairwise_cons.mpr ⟨fun r hr => ?_, h2⟩
        rcases List.mem_cons.mp hr with rfl | hr
        · exact .inr (.inr (Nat.le_refl _))
        · exact (List.pairwise_cons.mp h2).1 r hr
    | leave =>
      cases below with
      | nil => exact ⟨⟨h1, h2⟩, rfl⟩
      | cons b below =>
        exact ⟨⟨fun s hs => h1 s (List.mem_cons_of_mem _ hs), (List.pairwise_cons.mp h2).2⟩, rfl⟩
    | field f spare =>
      have hx : 0 < (enc (top.val h) f).length := List.length_pos_iff.mpr (henc _ _)
      have ho := h1 top (List.mem_cons_self ..)
      obtain ⟨hv, hk⟩ := goAppend_val spare h top (enc (top.val h) f) ho hx
      obtain ⟨hb, hp⟩ := List.pairwise_cons.mp h2
      have hbo : ∀ s ∈ below, s.Ok h := fun s hs => h1 s (List.mem_cons_of_mem _ hs)
      refine ⟨⟨fun s hs => ?_, ?_⟩, ?_⟩
      · rcases List.mem_cons.mp hs with rfl | hs
        · exact hk
        · exact goAppend_ok spare h top s _ (hbo s hs)
      · exact List.pairwise_cons.mpr ⟨fun r hr => goAppend_behind spare h top r _ (hbo r hr) (hb r hr), hp⟩
      · have hm : below.map (·.val (goAppend spare h top (enc (top.val h) f)).2) = below.map (·.val h) :=
          List.map_congr_left fun r hr => goAppend_clear spare h top r _ ho (hbo r hr) hx (.inr (hb r hr))
        show plainLines enc _ _ todo = plainLines enc _ _ todo
        show _ = plainLines enc ((goAppend spare h top (enc (top.val h) f)).1.val
          (goAppend spare h top (enc (top.val h) f)).2)
          (below.map (·.val (goAppend spare h top (enc (top.val h) f)).2)) todo
        rw [hv, hm]
    | line own => exact ⟨⟨h1, h2⟩, rfl⟩

/-! ## Several calls -/

/-- Each call is as it should be, and their loggers are apart. -/
def AllGood (h : Heap UInt8) (ts : List (LogThread F)) : Prop :=
  (∀ (j : Nat) (t : LogThread F), ts[j]? = some t → t.Good h) ∧
    ∀ (i j : Nat) (t u : LogThread F), i ≠ j → ts[i]? = some t → ts[j]? = some u → ∀ s ∈ t.stack, ∀ r ∈ u.stack, s.Apart r

theorem plain_congr {h g : Heap UInt8} {t : LogThread F} (hv : ∀ s ∈ t.stack, s.val g = s.val h) :
    t.plain enc g = t.plain enc h := by
  rw [LogThread.plain, LogThread.plain, hv _ (List.mem_cons_self ..),
    List.map_congr_left fun s hs => hv s (List.mem_cons_of_mem _ hs)]

/-- After a step of one call. -/
theorem AllGood.step (henc : ∀ b f, enc b f ≠ []) {h : Heap UInt8} {ts : List (LogThread F)} (hg : AllGood h ts)
    {j : Nat} {t : LogThread F} (hj : ts[j]? = some t) :
    AllGood (t.step enc h).1 (ts.set j (t.step enc h).2.1) ∧
      ∀ (i : Nat) (u : LogThread F), i ≠ j → ts[i]? = some u → u.plain enc (t.step enc h).1 = u.plain enc h := by
  obtain ⟨h1, h2⟩ := hg
  have hgood := t.step_good henc h (h1 j t hj)
  have hlt : j < ts.length := (List.getElem?_eq_some_iff.mp hj).1
  have hother : ∀ (i : Nat) (u : LogThread F), i ≠ j → ts[i]? = some u → ∀ s ∈ u.stack, s.val (t.step enc h).1 = s.val h :=
    fun i u hi hu s hs => (t.step_clear henc h (h1 j t hj) s ((h1 i u hu).1 s hs)
      fun r hr => .inl (h2 j i t u (Ne.symm hi) hj hu r hr s hs)).1
  have hap : ∀ (i : Nat) (u : LogThread F), i ≠ j → ts[i]? = some u → ∀ r ∈ u.stack, ∀ s ∈ (t.step enc h).2.1.stack, s.Apart r :=
    fun i u hi hu r hr => t.step_apart henc h r ((h1 i u hu).1 r hr)
      fun s hs => h2 j i t u (Ne.symm hi) hj hu s hs r hr
  refine ⟨⟨fun i u hu => ?_, fun i k u v hik hu hv s hs r hr => ?_⟩, fun i u hi hu => plain_congr (hother i u hi hu)⟩
  · by_cases hi : i = j
    · subst hi
      rw [List.getElem?_set_self hlt] at hu
      obtain rfl := Option.some.inj hu
      exact hgood.1
    · rw [List.getElem?_set_ne (Ne.symm hi)] at hu
      exact ⟨fun s hs => t.step_ok h s ((h1 i u hu).1 s hs), (h1 i u hu).2⟩
  · by_cases hi : i = j
    · subst hi
      rw [List.getElem?_set_self hlt] at hu
      obtain rfl := Option.some.inj hu
      rw [List.getElem?_set_ne hik] at hv
      exact hap k v (Ne.symm hik) hv r hr s hs
    · rw [List.getElem?_set_ne (Ne.symm hi)] at hu
      by_cases hk : k = j
      · subst hk
        rw [List.getElem?_set_self hlt] at hv
        obtain rfl := Option.some.inj hv
        exact (hap i u hi hu s hs r hr).symm
      · rw [List.getElem?_set_ne (Ne.symm hk)] at hv
        exact h2 i k u v hik hu hv s hs r hr

/-- The lines of a run, and what is left to print, are what is meant. -/
theorem logRun_lines (henc : ∀ b f, enc b f ≠ []) : ∀ (order : List Nat) (h : Heap UInt8) (ts : List (LogThread F)),
    AllGood h ts → ∀ (j : Nat) (t : LogThread F), ts[j]? = some t →
      ∃ u, (logRun enc order h ts).2.1[j]? = some u ∧
        t.plain enc h = linesOfCall j (logRun enc order h ts).2.2 ++ u.plain enc (logRun enc order h ts).1
  | [], _, _, _, _, t, hj => ⟨t, hj, rfl⟩
  | i :: order, h, ts, hg, j, t, hj => by
    rw [logRun]
    cases hi : ts[i]? with
    | none => exact logRun_lines henc order h ts hg j t hj
    | some v =>
      obtain ⟨hg', hsame⟩ := hg.step henc hi
      have hlt : i < ts.length := (List.getElem?_eq_some_iff.mp hi).1
      by_cases hij : j = i
      · subst hij
        obtain rfl := Option.some.inj (hi.symm.trans hj)
        obtain ⟨u, hu, e⟩ := logRun_lines henc order _ _ hg' j _ (List.getElem?_set_self hlt)
        refine ⟨u, hu, ?_⟩
        rw [(v.step_good henc h (hg.1 j v hi)).2, e, ← List.append_assoc]
        congr 1
        simp only [linesOfCall, List.filter_append, List.map_append]
        cases (v.step enc h).2.2 <;> simp
      · obtain ⟨u, hu, e⟩ := logRun_lines henc order _ _ hg' j t ((List.getElem?_set_ne (Ne.symm hij)).trans hj)
        refine ⟨u, hu, ?_⟩
        rw [← hsame j t hij hj, e]
        congr 1
        simp only [linesOfCall, List.filter_append, List.map_append]
        cases (v.step enc h).2.2 <;> simp [Ne.symm hij]

/-- What all calls are clear of stays as it is. -/
theorem logRun_clear (henc : ∀ b f, enc b f ≠ []) (r : Slice) : ∀ (order : List Nat) (h : Heap UInt8)
    (ts : List (LogThread F)), AllGood h ts → r.Ok h → (∀ (j : Nat) (t : LogThread F), ts[j]? = some t → t.Clear r) →
      r.val (logRun enc order h ts).1 = r.val h
  | [], _, _, _, _, _ => rfl
  | i :: order, h, ts, hg, hr, hc => by
    rw [logRun]
    cases hi : ts[i]? with
    | none => exact logRun_clear henc r order h ts hg hr hc
    | some v =>
      obtain ⟨hv, hcv⟩ := v.step_clear henc h (hg.1 i v hi) r hr (hc i v hi)
      have hlt : i < ts.length := (List.getElem?_eq_some_iff.mp hi).1
      refine (logRun_clear henc r order _ _ (hg.step henc hi).1 (v.step_ok h r hr) fun j t hj => ?_).trans hv
      by_cases hij : j = i
      · subst hij
        rw [List.getElem?_set_self hlt] at hj
        obtain rfl := Option.some.inj hj
        exact hcv
      · rw [List.getElem?_set_ne (Ne.symm hij)] at hj
        exact hc j t hj

/-! ## The property -/

/-- Calls about to be made, by their loggers and what they do. -/
def callsWith (cs : List (Slice × List (LogStep F))) : List (LogThread F) := cs.map fun c => callWith c.1 c.2

theorem callsWith_get {cs : List (Slice × List (LogStep F))} {j : Nat} {t : LogThread F}
    (h : (callsWith cs)[j]? = some t) : ∃ c, cs[j]? = some c ∧ t = callWith c.1 c.2 := by
  rw [callsWith, List.getElem?_map] at h
  cases hc : cs[j]? with
  | none => rw [hc] at h; exact nomatch h
  | some c => rw [hc] at h; exact ⟨c, rfl, (Option.some.inj h).symm⟩

theorem callsWith_good {h : Heap UInt8} {cs : List (Slice × List (LogStep F))} (hok : ∀ c ∈ cs, c.1.Ok h)
    (hap : ∀ (i j : Nat) c d, i ≠ j → cs[i]? = some c → cs[j]? = some d → c.1.Apart d.1) : AllGood h (callsWith cs) := by
  refine ⟨fun j t hj => ?_, fun i j t u hij ht hu s hs r hr => ?_⟩
  · obtain ⟨c, hc, rfl⟩ := callsWith_get hj
    refine ⟨fun s hs => ?_, List.pairwise_singleton _ _⟩
    obtain rfl := List.mem_singleton.mp hs
    exact hok c (List.mem_of_getElem? hc)
  · obtain ⟨c, hc, rfl⟩ := callsWith_get ht
    obtain ⟨d, hd, rfl⟩ := callsWith_get hu
    obtain rfl := List.mem_singleton.mp hs
    obtain rfl := List.mem_singleton.mp hr
    exact hap i j c d hij hc hd

/-- C94, the part that holds: calls whose loggers are apart, in whatever order their steps are taken, and whatever the
methods they consist of.  The lines that each has printed are those it should have printed, all of them once it is done,
and every logger of a caller that ends before the room behind the loggers it has passed on, those included, has the
fields it had.

Missing: calls made at the same time with loggers that have room in a common array, see `C94_mixed_up`. -/
theorem C94_lines_partial (henc : ∀ b f, enc b f ≠ []) (h : Heap UInt8) (cs : List (Slice × List (LogStep F)))
    (order : List Nat) (hok : ∀ c ∈ cs, c.1.Ok h)
    (hap : ∀ (i j : Nat) c d, i ≠ j → cs[i]? = some c → cs[j]? = some d → c.1.Apart d.1) :
    let r := logRun enc order h (callsWith cs)
    (∀ (j : Nat) c, cs[j]? = some c → linesOfCall j r.2.2 <+: plainLines enc (c.1.val h) [] c.2 ∧
      ((∀ t, r.2.1[j]? = some t → t.todo = []) → linesOfCall j r.2.2 = plainLines enc (c.1.val h) [] c.2)) ∧
    ∀ s : Slice, s.Ok h → (∀ c ∈ cs, c.1.Apart s ∨ s.Behind c.1) → s.val r.1 = s.val h := by
  have hg := callsWith_good hok hap
  refine ⟨fun j c hj => ?_, fun s hs hc => logRun_clear henc s order h _ hg hs fun j t hj => ?_⟩
  · obtain ⟨u, hu, e⟩ := logRun_lines henc order h _ hg j (callWith c.1 c.2) (by simp [callsWith, hj])
    have e' : plainLines enc (c.1.val h) [] c.2 = _ := e
    refine ⟨⟨_, e'.symm⟩, fun hd => ?_⟩
    rw [e', LogThread.plain, hd u hu]
    simp [plainLines]
  · obtain ⟨c, hj', rfl⟩ := callsWith_get hj
    intro t ht
    obtain rfl := List.mem_singleton.mp ht
    exact hc c (List.mem_of_getElem? hj')

/-- One call at a time, with whatever logger: it prints what it should, and its caller's logger stays as it was, so that
the caller's next call is in the same position. -/
theorem C94_one_at_a_time (henc : ∀ b f, enc b f ≠ []) (h : Heap UInt8) (s : Slice) (todo : List (LogStep F)) (n : Nat)
    (hs : s.Ok h) :
    let r := logRun enc (List.replicate n 0) h [callWith s todo]
    linesOfCall 0 r.2.2 <+: plainLines enc (s.val h) [] todo ∧ s.val r.1 = s.val h ∧ s.Ok r.1 := by
  have hap : ∀ (i j : Nat) (c d : Slice × List (LogStep F)), i ≠ j → [(s, todo)][i]? = some c →
      [(s, todo)][j]? = some d → c.1.Apart d.1 := by
    intro i j c d hij hi hj
    have h1 := (List.getElem?_eq_some_iff.mp hi).1
    have h2 := (List.getElem?_eq_some_iff.mp hj).1
    simp only [List.length_singleton] at h1 h2
    omega
  have hok : ∀ c ∈ [(s, todo)], c.1.Ok h := by simpa using hs
  have hm := C94_lines_partial henc h [(s, todo)] (List.replicate n 0) hok hap
  refine ⟨(hm.1 0 _ rfl).1, hm.2 s hs fun c hc => ?_, ?_⟩
  · obtain rfl := List.mem_singleton.mp hc
    exact .inr (.inr (.inr (Nat.le_refl _)))
  · have : ∀ (order : List Nat) (h : Heap UInt8) (ts : List (LogThread F)), s.Ok h → s.Ok (logRun enc order h ts).1 := by
      intro order
      induction order with
      | nil => exact fun _ _ hs => hs
      | cons i order ih =>
        intro h ts hs
        rw [logRun]
        cases ts[i]? with
        | none => exact ih h ts hs
        | some v => exact ih _ _ (v.step_ok h s hs)
    exact this _ _ _ hs

/-- A logger with one field, and room for 90 bytes. -/
def roomyLogger : Slice × Heap UInt8 := goNew [] (jsonField [] ("app", "shop")) (List.replicate 90 0)

/-- C94 is false of calls that are made at the same time with one logger: two calls of `Decrypt` for different objects
with the logger of one context.  The first one says "authenticating caller" about the object of the second one: its line
is one that the second should print, and none that it should print itself. -/
theorem C94_mixed_up :
    let first := decryptLogs "a1" "u7" []
    let second := decryptLogs "b2" "u8" []
    let s := roomyLogger.1
    let h := roomyLogger.2
    ∃ order l, l ∈ linesOfCall 0 (logRun jsonField order h (callsWith [(s, first), (s, second)])).2.2 ∧
      l ∉ plainLines jsonField (s.val h) [] first ∧ l ∈ plainLines jsonField (s.val h) [] second :=
  ⟨[0, 0, 0, 1, 1, 1, 0],
    "{\"app\":\"shop\",\"method\":\"decrypt\",\"oid\":\"b2\",\"message\":\"authenticating caller\"}".toUTF8.toList,
    by decide +kernel⟩

/-- The same two calls, each with a logger of its own: the hypotheses of `C94_lines_partial` hold, and the lines are all
there. -/
theorem C94_case :
    let l := roomyLogger
    let m := goNew l.2 (jsonField [] ("app", "shop")) (List.replicate 90 0)
    l.1.Ok m.2 ∧ m.1.Ok m.2 ∧ l.1.Apart m.1 ∧
      (linesOfCall 0 (logRun jsonField ((List.range 36).map (· % 2)) m.2
        (callsWith [(l.1, decryptLogs "a1" "u7" []), (m.1, decryptLogs "b2" "u8" [])])).2.2).length = 10 := by
  refine ⟨?_, ?_, ?_, ?_⟩
  · unfold Slice.Ok; decide +kernel
  · unfold Slice.Ok; decide +kernel
  · unfold Slice.Apart; decide +kernel
  · decide +kernel

end D1
