import Verif.Model.Heap
import Verif.Proofs.Crypto
/-!
# Lemmas about slices and arrays
-/
namespace D1

section ops
variable {α : Type}

/-- The position and the length are within bounds: everything is written. -/
theorem overwrite_fit (xs : List α) (pos : Nat) (ys : List α) (h : pos + ys.length ≤ xs.length) :
    overwrite xs pos ys = xs.take pos ++ ys ++ xs.drop (pos + ys.length) := by
  rw [overwrite, List.take_of_length_le (l := ys) (by omega)]

theorem overwrite_length (xs : List α) (pos : Nat) (ys : List α) (h : pos ≤ xs.length) :
    (overwrite xs pos ys).length = xs.length := by
  simp [overwrite]; omega

/-- Each element after a write. -/
theorem overwrite_get (xs : List α) (pos : Nat) (ys : List α) (h : pos + ys.length ≤ xs.length) (i : Nat) :
    (overwrite xs pos ys)[i]? = if pos ≤ i ∧ i < pos + ys.length then ys[i - pos]? else xs[i]? := by
  rw [overwrite_fit _ _ _ h]
  by_cases h1 : i < pos
  · rw [if_neg (by omega), List.append_assoc, List.getElem?_append_left (by simp; omega), List.getElem?_take_of_lt h1]
  · by_cases h2 : i < pos + ys.length
    · rw [if_pos ⟨by omega, h2⟩, List.append_assoc, List.getElem?_append_right (by simp; omega),
        List.getElem?_append_left (by simp; omega)]
      congr 1; simp; omega
    · rw [if_neg (by omega), List.getElem?_append_right (by simp; omega), List.getElem?_drop]
      congr 1; simp; omega

theorem Slice.val_length (s : Slice) (h : Heap α) (hs : s.Ok h) : (s.val h).length = s.len := by
  obtain ⟨h1, h2⟩ := hs; simp [Slice.val]; omega

theorem array_append (h t : Heap α) (a : Nat) (ha : a < h.length) : Heap.array (h ++ t) a = h.array a := by
  simp [Heap.array, List.getElem?_append_left ha]

/-- Slices are not affected by new arrays. -/
theorem Slice.val_append (s : Slice) (h t : Heap α) (hs : s.Ok h) : s.val (h ++ t) = s.val h := by
  by_cases ha : s.arr < h.length
  · simp [Slice.val, array_append h t _ ha]
  · have : h.array s.arr = [] := by simp [Heap.array, List.getElem?_eq_none (Nat.not_lt.mp ha)]
    obtain ⟨h1, h2⟩ := hs
    rw [this] at h1
    have : s.len = 0 := by simp at h1; omega
    simp [Slice.val, this]

theorem Slice.ok_append (s : Slice) (h t : Heap α) (hs : s.Ok h) : s.Ok (h ++ t) := by
  by_cases ha : s.arr < h.length
  · simpa [Slice.Ok, array_append h t _ ha] using hs
  · have : h.array s.arr = [] := by simp [Heap.array, List.getElem?_eq_none (Nat.not_lt.mp ha)]
    obtain ⟨h1, h2⟩ := hs
    rw [this] at h1
    simp at h1
    exact ⟨by omega, by omega⟩

@[simp] theorem array_one (h : Heap α) (d : List α) : Heap.array (h ++ [d]) h.length = d := by simp [Heap.array]
@[simp] theorem array_two0 (h : Heap α) (d b : List α) : Heap.array (h ++ [d, b]) h.length = d := by simp [Heap.array]
@[simp] theorem array_two1 (h : Heap α) (d b : List α) : Heap.array (h ++ [d, b]) (h.length + 1) = b := by
  simp [Heap.array]
@[simp] theorem store_one (h : Heap α) (d : List α) (p : Nat) (x : List α) :
    Heap.store (h ++ [d]) h.length p x = h ++ [overwrite d p x] := by simp [Heap.store]
@[simp] theorem store_two0 (h : Heap α) (d b : List α) (p : Nat) (x : List α) :
    Heap.store (h ++ [d, b]) h.length p x = h ++ [overwrite d p x, b] := by simp [Heap.store]
@[simp] theorem store_two1 (h : Heap α) (d b : List α) (p : Nat) (x : List α) :
    Heap.store (h ++ [d, b]) (h.length + 1) p x = h ++ [d, overwrite b p x] := by
  simp [Heap.store, List.set_append]

end ops

/-- Overwriting all of an array. -/
theorem overwrite_all (b x : Bytes) (h : b.length = x.length) : overwrite b 0 x = x := by
  rw [overwrite_fit _ _ _ (by omega)]; simp [h]

/-- The answer `r` of a function on slices agrees with the answer `v` on values: it only made new arrays, and what it
returns lies in them. -/
def Refines (h : Heap UInt8) (r : Except Err Slice × Heap UInt8) (v : Except Err Bytes) : Prop :=
  ∃ t, r.2 = h ++ t ∧ match r.1, v with
    | .ok s, .ok x => s.Ok r.2 ∧ s.val r.2 = x ∧ h.length ≤ s.arr
    | .error e, .error e' => e = e'
    | _, _ => False

/-! ## Key wrapping -/

section kwp
variable {P : Prims} (L : P.Laws) (key : Bytes) (bc : Nat) (h : Heap UInt8)
include L

/-- The loop body of `computeW` on the two buffers is `wStep`. -/
theorem wStepH_eq (d b : Bytes) (hb : b.length = 16) (hd : d.length = 8 * (bc + 1)) (ij : Nat × Nat) (hj : ij.2 < bc) :
    wStepH P key bc ⟨h.length + 1, 0, 16, 16⟩ ⟨h.length, 0, d.length, d.length⟩ (h ++ [d, b]) ij =
      h ++ [(wStep P key bc (b, d) ij).2, (wStep P key bc (b, d) ij).1] := by
  have e0 : List.take (d.length - 8 * (ij.2 + 1)) (List.drop (8 * (ij.2 + 1)) d) = List.drop (8 * (ij.2 + 1)) d :=
    List.take_of_length_le (by simp)
  have ec : ∀ x : Bytes, overwrite b 8 x = copyAt b 8 x := fun _ => rfl
  simp only [wStepH, wStep, goCopy, Slice.sub, Slice.val, array_two0, array_two1, store_two0, store_two1, Nat.zero_add,
    List.drop_zero, e0, ec, show 16 - 8 = 8 from rfl]
  generalize hg : copyAt b 8 (List.take 8 (List.drop (8 * (ij.2 + 1)) d)) = b1
  have h1 : b1.length = 16 := by rw [← hg, copyAt_length _ _ _ (by omega), hb]
  have h2 : (P.aesEnc key b1).length = 16 := L.aes_len key b1 h1
  rw [List.take_of_length_le (l := b1) (by omega), List.take_of_length_le (l := P.aesEnc key b1) (by omega),
    overwrite_all b1 _ (by omega), List.take_of_length_le (l := P.aesEnc key b1) (by omega)]
  generalize hx : xorRound (P.aesEnc key b1) (roundConst bc ij.1 ij.2) = b2
  have h3 : b2.length = 16 := by rw [← hx, xorRound_length, h2]
  rw [List.take_of_length_le (l := b2) (by omega), overwrite_all _ b2 (by omega),
    List.take_of_length_le (l := List.drop 8 b2) (by simp; omega),
    List.take_of_length_le (l := List.drop 8 b2) (by simp; omega)]
  rfl

/-- The loop body of `invertW` on the two buffers is `wInvStep`. -/
theorem wInvStepH_eq (d b : Bytes) (hb : b.length = 16) (hd : d.length = 8 * (bc + 1)) (ij : Nat × Nat)
    (hj : ij.2 < bc) :
    wInvStepH P key bc ⟨h.length + 1, 0, 16, 16⟩ ⟨h.length, 0, d.length, d.length⟩ (h ++ [d, b]) ij =
      h ++ [(wInvStep P key bc (b, d) ij).2, (wInvStep P key bc (b, d) ij).1] := by
  have e0 : List.take (d.length - 8 * (ij.2 + 1)) (List.drop (8 * (ij.2 + 1)) d) = List.drop (8 * (ij.2 + 1)) d :=
    List.take_of_length_le (by simp)
  have ec : ∀ x : Bytes, overwrite b 8 x = copyAt b 8 x := fun _ => rfl
  simp only [wInvStepH, wInvStep, goCopy, Slice.sub, Slice.val, array_two0, array_two1, store_two0, store_two1,
    Nat.zero_add, List.drop_zero, e0, ec, show 16 - 8 = 8 from rfl]
  generalize hg : copyAt b 8 (List.take 8 (List.drop (8 * (ij.2 + 1)) d)) = b1
  have h1 : b1.length = 16 := by rw [← hg, copyAt_length _ _ _ (by omega), hb]
  rw [List.take_of_length_le (l := b1) (by omega)]
  generalize hx : xorRound b1 (roundConst bc ij.1 ij.2) = b2
  have h2 : b2.length = 16 := by rw [← hx, xorRound_length, h1]
  rw [List.take_of_length_le (l := b2) (by omega), overwrite_all b1 b2 (by omega),
    List.take_of_length_le (l := b2) (by omega)]
  generalize hy : P.aesDec key b2 = b3
  have h3 : b3.length = 16 := by rw [← hy]; exact L.aes_dec_len key b2 h2
  rw [List.take_of_length_le (l := b3) (by omega), overwrite_all _ b3 (by omega),
    List.take_of_length_le (l := List.drop 8 b3) (by simp; omega),
    List.take_of_length_le (l := List.drop 8 b3) (by simp; omega)]
  rfl

/-- Both steps keep the sizes of the buffers. -/
theorem wStep_sizes (s : Bytes × Bytes) (hb : s.1.length = 16) (hd : s.2.length = 8 * (bc + 1)) (ij : Nat × Nat)
    (hj : ij.2 < bc) : (wStep P key bc s ij).1.length = 16 ∧ (wStep P key bc s ij).2.length = 8 * (bc + 1) := by
  refine ⟨?_, ?_⟩
  · rw [wStep]; simp only [xorRound_length]
    exact L.aes_len _ _ (by rw [copyAt_length _ _ _ (by omega), hb])
  · rw [wStep]; simp only []
    rw [copyAt_length _ _ _ (by omega), hd]

theorem wInvStep_sizes (s : Bytes × Bytes) (hb : s.1.length = 16) (hd : s.2.length = 8 * (bc + 1)) (ij : Nat × Nat)
    (hj : ij.2 < bc) : (wInvStep P key bc s ij).1.length = 16 ∧ (wInvStep P key bc s ij).2.length = 8 * (bc + 1) := by
  refine ⟨?_, ?_⟩
  · rw [wInvStep]; simp only []
    exact L.aes_dec_len _ _ (by rw [xorRound_length, copyAt_length _ _ _ (by omega), hb])
  · rw [wInvStep]; simp only []
    rw [copyAt_length _ _ _ (by omega), hd]

theorem wFoldH (l : List (Nat × Nat)) (hl : ∀ ij ∈ l, ij.2 < bc) (d b : Bytes) (hb : b.length = 16)
    (hd : d.length = 8 * (bc + 1)) :
    l.foldl (wStepH P key bc ⟨h.length + 1, 0, 16, 16⟩ ⟨h.length, 0, d.length, d.length⟩) (h ++ [d, b]) =
        h ++ [(l.foldl (wStep P key bc) (b, d)).2, (l.foldl (wStep P key bc) (b, d)).1] ∧
      (l.foldl (wStep P key bc) (b, d)).1.length = 16 ∧ (l.foldl (wStep P key bc) (b, d)).2.length = d.length := by
  induction l generalizing d b with
  | nil => exact ⟨rfl, hb, rfl⟩
  | cons ij l ih =>
    have hs := wStep_sizes L key bc (b, d) hb hd ij (hl ij (by simp))
    simp only [List.foldl_cons, wStepH_eq L key bc h d b hb hd ij (hl ij (by simp))]
    have := ih (fun x hx => hl x (by simp [hx])) (wStep P key bc (b, d) ij).2 (wStep P key bc (b, d) ij).1 hs.1 hs.2
    rw [hs.2, ← hd] at this
    exact this

theorem wInvFoldH (l : List (Nat × Nat)) (hl : ∀ ij ∈ l, ij.2 < bc) (d b : Bytes) (hb : b.length = 16)
    (hd : d.length = 8 * (bc + 1)) :
    l.foldl (wInvStepH P key bc ⟨h.length + 1, 0, 16, 16⟩ ⟨h.length, 0, d.length, d.length⟩) (h ++ [d, b]) =
        h ++ [(l.foldl (wInvStep P key bc) (b, d)).2, (l.foldl (wInvStep P key bc) (b, d)).1] ∧
      (l.foldl (wInvStep P key bc) (b, d)).1.length = 16 ∧
      (l.foldl (wInvStep P key bc) (b, d)).2.length = d.length := by
  induction l generalizing d b with
  | nil => exact ⟨rfl, hb, rfl⟩
  | cons ij l ih =>
    have hs := wInvStep_sizes L key bc (b, d) hb hd ij (hl ij (by simp))
    simp only [List.foldl_cons, wInvStepH_eq L key bc h d b hb hd ij (hl ij (by simp))]
    have := ih (fun x hx => hl x (by simp [hx])) (wInvStep P key bc (b, d) ij).2 (wInvStep P key bc (b, d) ij).1 hs.1 hs.2
    rw [hs.2, ← hd] at this
    exact this

omit L in
/-- A slice of new arrays. -/
theorem Slice.ok_new (d b : Bytes) (i n : Nat) (hi : i + n ≤ d.length) :
    Slice.Ok ⟨h.length, i, n, d.length - i⟩ (h ++ [d, b]) := by
  refine ⟨?_, ?_⟩ <;> simp <;> omega

omit L in
theorem Refines.error (t : Heap UInt8) (e : Err) : Refines h (.error e, h ++ t) (.error e) := ⟨t, rfl, rfl⟩

omit L in
theorem Refines.error' (e : Err) : Refines h (.error e, h) (.error e) := ⟨[], by simp, rfl⟩

/-- `invertW` works on copies. -/
theorem invertWH_refines (wrapped : Slice) (hw : wrapped.Ok h) :
    Refines h (invertWH P key h wrapped) (invertW P key (wrapped.val h)) := by
  have hl := wrapped.val_length h hw
  rw [invertWH, invertW, hl]
  by_cases hc : wrapped.len < 24 ∨ wrapped.len % 8 ≠ 0
  · rw [if_pos hc, if_pos hc]; exact Refines.error' h .kwp
  · rw [if_neg hc, if_neg hc]
    generalize hw' : wrapped.val h = w at hl ⊢
    have hv : wrapped.val (h ++ [List.replicate wrapped.len 0]) = w := by rw [wrapped.val_append h _ hw, hw']
    have e1 : goCopy (h ++ [List.replicate wrapped.len 0]) ⟨h.length, 0, wrapped.len, wrapped.len⟩
        (wrapped.val (h ++ [List.replicate wrapped.len 0])) = h ++ [w] := by
      rw [hv]
      simp only [goCopy, store_one]
      rw [List.take_of_length_le (by omega), overwrite_all _ _ (by simp [hl])]
    simp only [goNew, List.append_nil, List.length_replicate, List.length_nil, Nat.add_zero, e1]
    have e2 : goCopy ((h ++ [w]) ++ [List.replicate 16 0]) ⟨(h ++ [w]).length, 0, 16, 16⟩
        ((Slice.sub ⟨h.length, 0, wrapped.len, wrapped.len⟩ 0 8).val ((h ++ [w]) ++ [List.replicate 16 0])) =
        h ++ [w, copyAt (List.replicate 16 0) 0 (w.take 8)] := by
      have e : (h ++ [w]) ++ [List.replicate 16 (0 : UInt8)] = h ++ [w, List.replicate 16 0] := by simp
      have e' : (h ++ [w]).length = h.length + 1 := by simp
      rw [e, e']
      simp only [goCopy, Slice.sub, Slice.val, array_two0, store_two1, Nat.zero_add, List.drop_zero, Nat.sub_zero]
      rw [List.take_of_length_le (l := w.take 8) (by simp)]
      rfl
    rw [e2]
    have e3 : (h ++ [w]).length = h.length + 1 := by simp
    rw [e3, ← hl]
    have hb : (copyAt (List.replicate 16 (0 : UInt8)) 0 (w.take 8)).length = 16 := by
      rw [copyAt_length _ _ _ (by simp)]; simp
    have hbc : w.length = 8 * (w.length / 8 - 1 + 1) := by omega
    obtain ⟨f1, f2, f3⟩ := wInvFoldH L key (w.length / 8 - 1) h (wInvSchedule (w.length / 8 - 1))
      (by rw [wInvSchedule_eq]; intro ij hij; exact wSchedule_lt _ ij (by simpa using hij)) w _ hb hbc
    rw [f1]
    generalize (wInvSchedule (w.length / 8 - 1)).foldl (wInvStep P key (w.length / 8 - 1))
      (copyAt (List.replicate 16 0) 0 (List.take 8 w), w) = s at f2 f3 ⊢
    have e4 : goCopy (h ++ [s.2, s.1]) ⟨h.length, 0, w.length, w.length⟩
        ((Slice.sub ⟨h.length + 1, 0, 16, 16⟩ 0 8).val (h ++ [s.2, s.1])) = h ++ [copyAt s.2 0 (s.1.take 8), s.1] := by
      simp only [goCopy, Slice.sub, Slice.val, array_two1, store_two0, Nat.zero_add, List.drop_zero, Nat.sub_zero]
      rw [List.take_of_length_le (l := s.1.take 8) (by simp; omega)]
      rfl
    rw [e4]
    refine ⟨_, rfl, ?_, ?_, Nat.le_refl _⟩
    · have := Slice.ok_new h (copyAt s.2 0 (s.1.take 8)) s.1 0 w.length (by rw [copyAt_length _ _ _ (by omega)]; omega)
      rwa [copyAt_length _ _ _ (by omega), f3, Nat.sub_zero] at this
    · simp only [Slice.val, array_two0, List.drop_zero]
      exact List.take_of_length_le (by rw [copyAt_length _ _ _ (by omega)]; omega)

/-- `computeW` works on copies. -/
theorem computeWH_refines (iv x : Slice) (hi : iv.Ok h) (hx : x.Ok h) :
    Refines h (computeWH P key h iv x) (computeW P key (iv.val h) (x.val h)) := by
  have hl := iv.val_length h hi
  have hlx := x.val_length h hx
  rw [computeWH, computeW, hl, hlx]
  by_cases hc : x.len ≤ 8 ∨ x.len > 2 ^ 31 - 1 - 16 ∨ iv.len ≠ 8
  · rw [if_pos hc, if_pos hc]; exact Refines.error' h .kwp
  · rw [if_neg hc, if_neg hc]
    have hw8 : 8 + x.len ≤ wrappingSize x.len := by rw [wrappingSize_eq]; omega
    have hm : wrappingSize x.len % 8 = 0 := by rw [wrappingSize_eq]; omega
    generalize hn : wrappingSize x.len = n at hw8 hm
    have hv : ∀ g : Heap UInt8, iv.val (h ++ g) = iv.val h := fun g => iv.val_append h g hi
    have hvx : ∀ g : Heap UInt8, x.val (h ++ g) = x.val h := fun g => x.val_append h g hx
    generalize hiv : iv.val h = v at hl hv
    generalize hxv : x.val h = y at hlx hvx
    simp only [goNew, List.append_nil, List.length_replicate, List.length_nil, Nat.add_zero]
    have e1 : goCopy (h ++ [List.replicate n 0]) ⟨h.length, 0, n, n⟩ (iv.val (h ++ [List.replicate n 0])) =
        h ++ [copyAt (List.replicate n 0) 0 v] := by
      rw [hv]
      simp only [goCopy, store_one]
      rw [List.take_of_length_le (by omega)]; rfl
    rw [e1]
    have e2 : ∀ d : Bytes, goCopy (h ++ [d]) (Slice.sub ⟨h.length, 0, n, n⟩ 8 n) (x.val (h ++ [d])) =
        h ++ [copyAt d 8 y] := by
      intro d
      rw [hvx]
      simp only [goCopy, Slice.sub, store_one, Nat.zero_add]
      rw [List.take_of_length_le (by omega)]; rfl
    rw [e2]
    generalize hd : copyAt (copyAt (List.replicate n 0) 0 v) 8 y = d
    have hdl : d.length = n := by
      rw [← hd, copyAt_length _ _ _ (by rw [copyAt_length _ _ _ (by simp)]; simp; omega),
        copyAt_length _ _ _ (by simp)]; simp
    have e3 : (h ++ [d]) ++ [List.replicate 16 (0 : UInt8)] = h ++ [d, List.replicate 16 0] := by simp
    have e4 : (h ++ [d]).length = h.length + 1 := by simp
    rw [e3, e4]
    have e5 : goCopy (h ++ [d, List.replicate 16 0]) ⟨h.length + 1, 0, 16, 16⟩
        ((Slice.sub ⟨h.length, 0, n, n⟩ 0 8).val (h ++ [d, List.replicate 16 0])) =
        h ++ [d, copyAt (List.replicate 16 0) 0 (d.take 8)] := by
      simp only [goCopy, Slice.sub, Slice.val, array_two0, store_two1, Nat.zero_add, List.drop_zero, Nat.sub_zero]
      rw [List.take_of_length_le (l := d.take 8) (by simp)]
      rfl
    rw [e5, ← hdl]
    have hb : (copyAt (List.replicate 16 (0 : UInt8)) 0 (d.take 8)).length = 16 := by
      rw [copyAt_length _ _ _ (by simp)]; simp
    have hbc : d.length = 8 * (d.length / 8 - 1 + 1) := by omega
    obtain ⟨f1, f2, f3⟩ := wFoldH L key (d.length / 8 - 1) h (wSchedule (d.length / 8 - 1))
      (fun ij hij => wSchedule_lt _ ij hij) d _ hb hbc
    rw [f1]
    generalize (wSchedule (d.length / 8 - 1)).foldl (wStep P key (d.length / 8 - 1))
      (copyAt (List.replicate 16 0) 0 (List.take 8 d), d) = s at f2 f3 ⊢
    have e6 : goCopy (h ++ [s.2, s.1]) (Slice.sub ⟨h.length, 0, d.length, d.length⟩ 0 8)
        (Slice.val ⟨h.length + 1, 0, 16, 16⟩ (h ++ [s.2, s.1])) = h ++ [copyAt s.2 0 (s.1.take 8), s.1] := by
      simp only [goCopy, Slice.sub, Slice.val, array_two1, store_two0, Nat.zero_add, List.drop_zero, Nat.sub_zero]
      rw [List.take_of_length_le (l := s.1) (by omega)]
      rfl
    rw [e6]
    refine ⟨_, rfl, ?_, ?_, Nat.le_refl _⟩
    · have := Slice.ok_new h (copyAt s.2 0 (s.1.take 8)) s.1 0 d.length (by rw [copyAt_length _ _ _ (by omega)]; omega)
      rwa [copyAt_length _ _ _ (by omega), f3, Nat.sub_zero] at this
    · simp only [Slice.val, array_two0, List.drop_zero]
      exact List.take_of_length_le (by rw [copyAt_length _ _ _ (by omega)]; omega)

/-- `Wrap` works on copies. -/
theorem kwpWrapH_refines (x : Slice) (hx : x.Ok h) : Refines h (kwpWrapH P key h x) (kwpWrap P key (x.val h)) := by
  have hl := x.val_length h hx
  rw [kwpWrapH, kwpWrap, hl]
  split
  · exact Refines.error' h .kwp
  · split
    · exact Refines.error' h .kwp
    · simp only [goNew, List.append_nil, List.length_nil, Nat.add_zero]
      have hlen : (be32 ivPrefix ++ be32 x.len).length = 8 := rfl
      have hi : Slice.Ok ⟨h.length, 0, 8, 8⟩ (h ++ [be32 ivPrefix ++ be32 x.len]) := by
        refine ⟨?_, Nat.le_refl _⟩; simp [hlen]
      have := computeWH_refines L key (h ++ [be32 ivPrefix ++ be32 x.len]) ⟨h.length, 0, 8, 8⟩ x hi (x.ok_append h _ hx)
      rw [x.val_append h _ hx] at this
      have e : Slice.val ⟨h.length, 0, 8, 8⟩ (h ++ [be32 ivPrefix ++ be32 x.len]) = be32 ivPrefix ++ be32 x.len := by
        simp only [Slice.val, array_one, List.drop_zero]; exact List.take_of_length_le (by rw [hlen])
      rw [e] at this
      obtain ⟨t, h1, h2⟩ := this
      refine ⟨[be32 ivPrefix ++ be32 x.len] ++ t, by rw [hlen, h1]; simp, ?_⟩
      rw [hlen]
      revert h2
      cases (computeWH P key (h ++ [be32 ivPrefix ++ be32 x.len]) ⟨h.length, 0, 8, 8⟩ x).1 <;>
        cases computeW P key (be32 ivPrefix ++ be32 x.len) (x.val h) <;> simp
      intro a b c; exact ⟨a, b, by omega⟩

/-- `Unwrap` works on copies. -/
theorem kwpUnwrapH_refines (x : Slice) (hx : x.Ok h) :
    Refines h (kwpUnwrapH P key h x) (kwpUnwrap P key (x.val h)) := by
  have hl := x.val_length h hx
  rw [kwpUnwrapH, kwpUnwrap, hl]
  split
  · exact Refines.error' h .kwp
  split
  · exact Refines.error' h .kwp
  split
  · exact Refines.error' h .kwp
  obtain ⟨t, h1, h2⟩ := invertWH_refines L key h x hx
  revert h1 h2
  generalize invertWH P key h x = r
  generalize invertW P key (x.val h) = v
  obtain ⟨r, g⟩ := r
  intro h1 h2
  simp only at h1 h2
  cases r <;> cases v <;> simp only at h2 ⊢
  · subst h1 h2; exact Refines.error h t _
  · obtain ⟨h2, h3, h4⟩ := h2
    rename_i s u
    subst h1 h3
    have hsl := s.val_length _ h2
    rw [hsl]
    split
    · exact Refines.error h t _
    · split
      · exact Refines.error h t _
      · rename_i he
        split
        · exact Refines.error h t _
        · have hz : 8 + be32Val ((s.val (h ++ t)).drop 4) ≤ s.len := by
            have := not_not.mp he
            rw [wrappingSize_eq] at this; omega
          refine ⟨t, rfl, ?_, ?_, h4⟩
          · obtain ⟨o1, o2⟩ := h2
            refine ⟨?_, ?_⟩ <;> simp only [Slice.sub] <;> omega
          · generalize be32Val ((s.val (h ++ t)).drop 4) = n at hz ⊢
            simp only [Slice.val, Slice.sub, List.drop_take, List.drop_drop, List.take_take, Nat.add_sub_cancel_left]
            rw [Nat.min_eq_left (by omega)]

end kwp

end D1
