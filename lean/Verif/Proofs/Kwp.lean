import Verif.Model.Kwp
import Verif.Proofs.Encoding
/-!
# Key wrapping: the inverse loops
-/
namespace D1

/-! ## `copyAt` -/

theorem copyAt_length (d : Bytes) (off : Nat) (x : Bytes) (h : off ≤ d.length) : (copyAt d off x).length = d.length := by
  simp [copyAt]; omega

/-- `copyAt` when the source fits. -/
theorem copyAt_fit (d : Bytes) (off : Nat) (x : Bytes) (h : off + x.length ≤ d.length) :
    copyAt d off x = d.take off ++ x ++ d.drop (off + x.length) := by
  rw [copyAt, List.take_of_length_le (l := x) (by omega)]

theorem copyAt_get (d : Bytes) (off : Nat) (x : Bytes) (h : off + x.length ≤ d.length) :
    ((copyAt d off x).drop off).take x.length = x := by
  rw [copyAt_fit d off x h, List.append_assoc, List.drop_left' (by simp; omega)]
  simp

theorem copyAt_copyAt (d : Bytes) (off : Nat) (x y : Bytes) (h : off + x.length ≤ d.length) (he : y.length = x.length) :
    copyAt (copyAt d off x) off y = copyAt d off y := by
  have hl : (copyAt d off x).length = d.length := copyAt_length d off x (by omega)
  rw [copyAt_fit (copyAt d off x) off y (by omega), copyAt_fit d off y (by omega), copyAt_fit d off x h]
  have ht : (d.take off).length = off := by simp; omega
  congr 1
  · rw [List.append_assoc, List.take_left' ht]
  · rw [he, List.drop_left' (by simp; omega)]

theorem copyAt_self (d : Bytes) (off n : Nat) (h : off + n ≤ d.length) : copyAt d off ((d.drop off).take n) = d := by
  have hx : ((d.drop off).take n).length = n := by simp; omega
  rw [copyAt_fit _ _ _ (by omega), hx]
  rw [← List.drop_drop, List.append_assoc, List.take_append_drop, List.take_append_drop]

theorem copyAt_zero (d x : Bytes) (h : x.length ≤ d.length) : copyAt d 0 x = x ++ d.drop x.length := by
  rw [copyAt_fit _ _ _ (by omega)]; simp

theorem copyAt_drop (d : Bytes) (k off : Nat) (x : Bytes) (h : k + off ≤ d.length) :
    (copyAt d (k + off) x).drop k = copyAt (d.drop k) off x := by
  rw [copyAt, copyAt, List.append_assoc, List.drop_append_of_le_length (by simp; omega), List.drop_take,
    List.length_drop, List.drop_drop]
  simp only [List.append_assoc]
  rw [show k + off - k = off by omega, show d.length - (k + off) = d.length - k - off by omega,
    show k + off + x.length = k + (off + x.length) by omega]

/-! ## The round constant -/

@[simp] theorem xorRound_length (b : Bytes) (rc : Nat) : (xorRound b rc).length = b.length := by simp [xorRound]

theorem xorRound_xorRound (b : Bytes) (rc : Nat) : xorRound (xorRound b rc) rc = b := by
  apply List.ext_getElem (by simp)
  intro i h1 h2
  simp only [xorRound, List.getElem_mapIdx]
  split
  · rw [UInt8.xor_assoc, UInt8.xor_self, UInt8.xor_zero]
  · rfl

theorem xorRound_drop (b : Bytes) (rc : Nat) : (xorRound b rc).drop 8 = b.drop 8 := by
  apply List.ext_getElem (by simp)
  intro i h1 h2
  simp only [xorRound, List.getElem_drop, List.getElem_mapIdx]
  rw [if_neg (by omega)]

theorem xorRound_append (a c : Bytes) (rc : Nat) (ha : a.length = 8) : xorRound (a ++ c) rc = xorRound a rc ++ c := by
  have h1 := xorRound_drop (a ++ c) rc
  rw [List.drop_left' ha] at h1
  have h2 : (xorRound (a ++ c) rc).take 8 = xorRound a rc := by
    apply List.ext_getElem (by simp; omega)
    intro i h1 h2
    simp only [xorRound, List.getElem_take, List.getElem_mapIdx]
    rw [List.getElem_append_left (by simp at h2; omega)]
  rw [← List.take_append_drop 8 (xorRound (a ++ c) rc), h1, h2]

/-! ## Folding there and back -/

theorem foldl_inverse {σ ι : Type} (f g : σ → ι → σ) (Inv : σ → Prop) (l : List ι)
    (hf : ∀ s, Inv s → ∀ x ∈ l, Inv (f s x) ∧ g (f s x) x = s) (s : σ) (hs : Inv s) :
    Inv (l.foldl f s) ∧ l.reverse.foldl g (l.foldl f s) = s := by
  induction l generalizing s with
  | nil => exact ⟨hs, rfl⟩
  | cons x l ih =>
    obtain ⟨h1, h2⟩ := hf s hs x (List.mem_cons_self)
    obtain ⟨h3, h4⟩ := ih (fun s hs y hy => hf s hs y (List.mem_cons_of_mem _ hy)) (f s x) h1
    refine ⟨h3, ?_⟩
    rw [List.reverse_cons, List.foldl_append, List.foldl_cons (l := l), h4]
    exact h2

theorem wInvSchedule_eq (bc : Nat) : wInvSchedule bc = (wSchedule bc).reverse := by
  simp only [wInvSchedule, wSchedule, List.flatMap_def, List.reverse_flatten, List.map_map, List.map_reverse]
  congr 2

theorem wSchedule_lt (bc : Nat) : ∀ ij ∈ wSchedule bc, ij.2 < bc := by
  intro ij h
  simp only [wSchedule, List.mem_flatMap, List.mem_map, List.mem_range] at h
  obtain ⟨i, _, j, hj, rfl⟩ := h
  exact hj

/-! ## One round on the eight-byte register and the remaining blocks -/

/-- The invariant of the loops: an eight-byte register and `bc` further blocks. -/
def WInv (bc : Nat) (s : Bytes × Bytes) : Prop := s.1.length = 8 ∧ s.2.length = 8 * bc

/-- `wStep` on the bytes that survive a round. -/
def wA (P : Prims) (key : Bytes) (bc : Nat) (s : Bytes × Bytes) (ij : Nat × Nat) : Bytes × Bytes :=
  let o := P.aesEnc key (s.1 ++ (s.2.drop (8 * ij.2)).take 8)
  (xorRound (o.take 8) (roundConst bc ij.1 ij.2), copyAt s.2 (8 * ij.2) (o.drop 8))

/-- `wInvStep` on the bytes that survive a round. -/
def wB (P : Prims) (key : Bytes) (bc : Nat) (s : Bytes × Bytes) (ij : Nat × Nat) : Bytes × Bytes :=
  let o := P.aesDec key (xorRound s.1 (roundConst bc ij.1 ij.2) ++ (s.2.drop (8 * ij.2)).take 8)
  (o.take 8, copyAt s.2 (8 * ij.2) (o.drop 8))

/-- What survives of a (buf, data) pair. -/
def wView (s : Bytes × Bytes) : Bytes × Bytes := (s.1.take 8, s.2.drop 8)

section
variable {P : Prims} (L : P.Laws) (key : Bytes) (bc : Nat)
include L

theorem wA_inv (s : Bytes × Bytes) (hs : WInv bc s) (ij : Nat × Nat) (hj : ij.2 < bc) : WInv bc (wA P key bc s ij) := by
  obtain ⟨h1, h2⟩ := hs
  have hb : (s.1 ++ (s.2.drop (8 * ij.2)).take 8).length = 16 := by simp; omega
  have ho := L.aes_len key _ hb
  refine ⟨by simp [wA, ho], ?_⟩
  simp only [wA]
  rw [copyAt_length _ _ _ (by omega), h2]

theorem wB_inv (s : Bytes × Bytes) (hs : WInv bc s) (ij : Nat × Nat) (hj : ij.2 < bc) : WInv bc (wB P key bc s ij) := by
  obtain ⟨h1, h2⟩ := hs
  have hb : (xorRound s.1 (roundConst bc ij.1 ij.2) ++ (s.2.drop (8 * ij.2)).take 8).length = 16 := by simp; omega
  have ho := L.aes_dec_len key _ hb
  refine ⟨by simp [wB, ho], ?_⟩
  simp only [wB]
  rw [copyAt_length _ _ _ (by omega), h2]

theorem wB_wA (s : Bytes × Bytes) (hs : WInv bc s) (ij : Nat × Nat) (hj : ij.2 < bc) :
    wB P key bc (wA P key bc s ij) ij = s := by
  obtain ⟨h1, h2⟩ := hs
  have hc : ((s.2.drop (8 * ij.2)).take 8).length = 8 := by simp; omega
  have hb : (s.1 ++ (s.2.drop (8 * ij.2)).take 8).length = 16 := by simp only [List.length_append]; omega
  have ho := L.aes_len key _ hb
  have hd := L.aes_dec_enc key _ hb
  simp only [wA, wB]
  generalize hO : P.aesEnc key (s.1 ++ (s.2.drop (8 * ij.2)).take 8) = o at ho hd
  have hod : (o.drop 8).length = 8 := by simp [ho]
  have hg := copyAt_get s.2 (8 * ij.2) (o.drop 8) (by omega)
  rw [hod] at hg
  rw [xorRound_xorRound, hg, List.take_append_drop, hd, List.take_left' h1, List.drop_left' h1]
  rw [copyAt_copyAt _ _ _ _ (by omega) (by omega), copyAt_self _ _ _ (by omega)]

theorem wA_wB (s : Bytes × Bytes) (hs : WInv bc s) (ij : Nat × Nat) (hj : ij.2 < bc) :
    wA P key bc (wB P key bc s ij) ij = s := by
  obtain ⟨h1, h2⟩ := hs
  have hc : ((s.2.drop (8 * ij.2)).take 8).length = 8 := by simp; omega
  have hb : (xorRound s.1 (roundConst bc ij.1 ij.2) ++ (s.2.drop (8 * ij.2)).take 8).length = 16 := by
    simp only [List.length_append, xorRound_length]; omega
  have ho := L.aes_dec_len key _ hb
  have hd := L.aes_enc_dec key _ hb
  simp only [wA, wB]
  generalize hO : P.aesDec key (xorRound s.1 (roundConst bc ij.1 ij.2) ++ (s.2.drop (8 * ij.2)).take 8) = o at ho hd
  have hod : (o.drop 8).length = 8 := by simp [ho]
  have hg := copyAt_get s.2 (8 * ij.2) (o.drop 8) (by omega)
  rw [hod] at hg
  have hx : (xorRound s.1 (roundConst bc ij.1 ij.2)).length = 8 := by simp [h1]
  rw [hg, List.take_append_drop, hd, List.take_left' hx, List.drop_left' hx, xorRound_xorRound]
  rw [copyAt_copyAt _ _ _ _ (by omega) (by omega), copyAt_self _ _ _ (by omega)]

/-- The loop body of the code computes `wA`. -/
theorem wStep_eq (s : Bytes × Bytes) (h16 : s.1.length = 16) (h2 : s.2.length = 8 * (bc + 1)) (ij : Nat × Nat)
    (hj : ij.2 < bc) :
    (wStep P key bc s ij).1.length = 16 ∧ (wStep P key bc s ij).2.length = 8 * (bc + 1) ∧
      wView (wStep P key bc s ij) = wA P key bc (wView s) ij := by
  have hoff : 8 * (ij.2 + 1) = 8 + 8 * ij.2 := by omega
  have hdd : s.2.drop (8 * (ij.2 + 1)) = (s.2.drop 8).drop (8 * ij.2) := by rw [List.drop_drop, hoff]
  have hc : (((s.2.drop 8).drop (8 * ij.2)).take 8).length = 8 := by simp; omega
  have hbuf : copyAt s.1 8 (((s.2.drop 8).drop (8 * ij.2)).take 8) = s.1.take 8 ++ ((s.2.drop 8).drop (8 * ij.2)).take 8 := by
    rw [copyAt_fit _ _ _ (by omega), List.drop_of_length_le (l := s.1) (by omega), List.append_nil]
  have hb : (s.1.take 8 ++ ((s.2.drop 8).drop (8 * ij.2)).take 8).length = 16 := by
    rw [List.length_append, hc]; simp [h16]
  have ho := L.aes_len key _ hb
  simp only [wStep, wA, wView, hdd, hbuf]
  generalize P.aesEnc key (s.1.take 8 ++ ((s.2.drop 8).drop (8 * ij.2)).take 8) = o at ho
  have ht : (o.take 8).length = 8 := by simp [ho]
  have hx : xorRound o (roundConst bc ij.1 ij.2) = xorRound (o.take 8) (roundConst bc ij.1 ij.2) ++ o.drop 8 := by
    rw [← xorRound_append _ _ _ ht, List.take_append_drop]
  refine ⟨by simp [ho], by rw [copyAt_length _ _ _ (by omega), h2], ?_⟩
  rw [hx, List.take_left' (by simp [ho]), List.drop_left' (by simp [ho]), hoff, copyAt_drop _ _ _ _ (by omega)]

theorem wInvStep_eq (s : Bytes × Bytes) (h16 : s.1.length = 16) (h2 : s.2.length = 8 * (bc + 1)) (ij : Nat × Nat)
    (hj : ij.2 < bc) :
    (wInvStep P key bc s ij).1.length = 16 ∧ (wInvStep P key bc s ij).2.length = 8 * (bc + 1) ∧
      wView (wInvStep P key bc s ij) = wB P key bc (wView s) ij := by
  have hoff : 8 * (ij.2 + 1) = 8 + 8 * ij.2 := by omega
  have hdd : s.2.drop (8 * (ij.2 + 1)) = (s.2.drop 8).drop (8 * ij.2) := by rw [List.drop_drop, hoff]
  have hc : (((s.2.drop 8).drop (8 * ij.2)).take 8).length = 8 := by simp; omega
  have hbuf : copyAt s.1 8 (((s.2.drop 8).drop (8 * ij.2)).take 8) = s.1.take 8 ++ ((s.2.drop 8).drop (8 * ij.2)).take 8 := by
    rw [copyAt_fit _ _ _ (by omega), List.drop_of_length_le (l := s.1) (by omega), List.append_nil]
  have ht : (s.1.take 8).length = 8 := by simp [h16]
  have hb : (xorRound (s.1.take 8) (roundConst bc ij.1 ij.2) ++ ((s.2.drop 8).drop (8 * ij.2)).take 8).length = 16 := by
    rw [List.length_append, hc, xorRound_length, ht]
  have ho := L.aes_dec_len key _ hb
  simp only [wInvStep, wB, wView, hdd, hbuf, xorRound_append _ _ _ ht]
  generalize P.aesDec key (xorRound (s.1.take 8) (roundConst bc ij.1 ij.2) ++ ((s.2.drop 8).drop (8 * ij.2)).take 8) = o at ho
  refine ⟨ho, by rw [copyAt_length _ _ _ (by omega), h2], ?_⟩
  rw [hoff, copyAt_drop _ _ _ _ (by omega)]

theorem wFold_eq (l : List (Nat × Nat)) (hl : ∀ ij ∈ l, ij.2 < bc) (s : Bytes × Bytes) (h16 : s.1.length = 16)
    (h2 : s.2.length = 8 * (bc + 1)) :
    (l.foldl (wStep P key bc) s).2.length = 8 * (bc + 1) ∧
    wView (l.foldl (wStep P key bc) s) = l.foldl (wA P key bc) (wView s) := by
  induction l generalizing s with
  | nil => exact ⟨h2, rfl⟩
  | cons x l ih =>
    obtain ⟨e1, e2, e3⟩ := wStep_eq L key bc s h16 h2 x (hl x (List.mem_cons_self))
    simp only [List.foldl_cons]
    rw [← e3]
    exact ih (fun y hy => hl y (List.mem_cons_of_mem _ hy)) _ e1 e2

theorem wInvFold_eq (l : List (Nat × Nat)) (hl : ∀ ij ∈ l, ij.2 < bc) (s : Bytes × Bytes) (h16 : s.1.length = 16)
    (h2 : s.2.length = 8 * (bc + 1)) :
    (l.foldl (wInvStep P key bc) s).2.length = 8 * (bc + 1) ∧
    wView (l.foldl (wInvStep P key bc) s) = l.foldl (wB P key bc) (wView s) := by
  induction l generalizing s with
  | nil => exact ⟨h2, rfl⟩
  | cons x l ih =>
    obtain ⟨e1, e2, e3⟩ := wInvStep_eq L key bc s h16 h2 x (hl x (List.mem_cons_self))
    simp only [List.foldl_cons]
    rw [← e3]
    exact ih (fun y hy => hl y (List.mem_cons_of_mem _ hy)) _ e1 e2
end

/-- The permutation W of a buffer of at least one block. -/
def wPerm (P : Prims) (key d : Bytes) : Bytes :=
  let s := (wSchedule (d.length / 8 - 1)).foldl (wA P key (d.length / 8 - 1)) (d.take 8, d.drop 8)
  s.1 ++ s.2

/-- Its inverse. -/
def wPermInv (P : Prims) (key d : Bytes) : Bytes :=
  let s := (wSchedule (d.length / 8 - 1)).reverse.foldl (wB P key (d.length / 8 - 1)) (d.take 8, d.drop 8)
  s.1 ++ s.2

theorem buf0 (d : Bytes) (h : 8 ≤ d.length) :
    (copyAt (List.replicate 16 (0 : UInt8)) 0 (d.take 8)).take 8 = d.take 8 ∧
      (copyAt (List.replicate 16 (0 : UInt8)) 0 (d.take 8)).length = 16 := by
  have h8 : (d.take 8).length = 8 := by simp; omega
  refine ⟨?_, by rw [copyAt_length _ _ _ (by simp)]; simp⟩
  rw [copyAt_zero _ _ (by simp)]
  exact List.take_left' h8

section
variable {P : Prims} (L : P.Laws) (key : Bytes)
include L

/-- The loops of `computeW` compute `wPerm`. -/
theorem computeW_loop (d : Bytes) (h8 : 8 ≤ d.length) (hm : d.length % 8 = 0) :
    (fun s : Bytes × Bytes => copyAt s.2 0 (s.1.take 8))
      ((wSchedule (d.length / 8 - 1)).foldl (wStep P key (d.length / 8 - 1))
        (copyAt (List.replicate 16 (0 : UInt8)) 0 (d.take 8), d)) = wPerm P key d := by
  obtain ⟨hb1, hb2⟩ := buf0 d h8
  have hd : d.length = 8 * (d.length / 8 - 1 + 1) := by omega
  obtain ⟨e1, e2⟩ := wFold_eq L key (d.length / 8 - 1) (wSchedule (d.length / 8 - 1)) (wSchedule_lt _)
    (copyAt (List.replicate 16 (0 : UInt8)) 0 (d.take 8), d) hb2 hd
  have hi := (foldl_inverse (wA P key (d.length / 8 - 1)) (wB P key (d.length / 8 - 1)) (WInv (d.length / 8 - 1))
    (wSchedule (d.length / 8 - 1)) (fun s hs x hx => ⟨wA_inv L key _ s hs x (wSchedule_lt _ x hx),
      wB_wA L key _ s hs x (wSchedule_lt _ x hx)⟩) (d.take 8, d.drop 8) ⟨by simp; omega, by simp; omega⟩).1
  simp only [wView, hb1] at e2
  rw [← e2] at hi
  simp only [wPerm, ← e2]
  rw [copyAt_zero _ _ (by rw [hi.1]; omega), hi.1]

/-- The loops of `invertW` compute `wPermInv`. -/
theorem invertW_loop (d : Bytes) (h8 : 8 ≤ d.length) (hm : d.length % 8 = 0) :
    (fun s : Bytes × Bytes => copyAt s.2 0 (s.1.take 8))
      ((wInvSchedule (d.length / 8 - 1)).foldl (wInvStep P key (d.length / 8 - 1))
        (copyAt (List.replicate 16 (0 : UInt8)) 0 (d.take 8), d)) = wPermInv P key d := by
  rw [wInvSchedule_eq]
  obtain ⟨hb1, hb2⟩ := buf0 d h8
  have hd : d.length = 8 * (d.length / 8 - 1 + 1) := by omega
  have hlt : ∀ ij ∈ (wSchedule (d.length / 8 - 1)).reverse, ij.2 < d.length / 8 - 1 :=
    fun x hx => wSchedule_lt _ x (List.mem_reverse.mp hx)
  obtain ⟨e1, e2⟩ := wInvFold_eq L key (d.length / 8 - 1) (wSchedule (d.length / 8 - 1)).reverse hlt
    (copyAt (List.replicate 16 (0 : UInt8)) 0 (d.take 8), d) hb2 hd
  have hi := (foldl_inverse (wB P key (d.length / 8 - 1)) (wA P key (d.length / 8 - 1)) (WInv (d.length / 8 - 1))
    (wSchedule (d.length / 8 - 1)).reverse (fun s hs x hx => ⟨wB_inv L key _ s hs x (hlt x hx),
      wA_wB L key _ s hs x (hlt x hx)⟩) (d.take 8, d.drop 8) ⟨by simp; omega, by simp; omega⟩).1
  simp only [wView, hb1] at e2
  rw [← e2] at hi
  simp only [wPermInv, ← e2]
  rw [copyAt_zero _ _ (by rw [hi.1]; omega), hi.1]

theorem wPerm_length (d : Bytes) (h8 : 8 ≤ d.length) (hm : d.length % 8 = 0) : (wPerm P key d).length = d.length := by
  have hi := (foldl_inverse (wA P key (d.length / 8 - 1)) (wB P key (d.length / 8 - 1)) (WInv (d.length / 8 - 1))
    (wSchedule (d.length / 8 - 1)) (fun s hs x hx => ⟨wA_inv L key _ s hs x (wSchedule_lt _ x hx),
      wB_wA L key _ s hs x (wSchedule_lt _ x hx)⟩) (d.take 8, d.drop 8) ⟨by simp; omega, by simp; omega⟩).1
  simp only [wPerm, List.length_append, hi.1, hi.2]
  omega

theorem wPermInv_length (d : Bytes) (h8 : 8 ≤ d.length) (hm : d.length % 8 = 0) :
    (wPermInv P key d).length = d.length := by
  have hlt : ∀ ij ∈ (wSchedule (d.length / 8 - 1)).reverse, ij.2 < d.length / 8 - 1 :=
    fun x hx => wSchedule_lt _ x (List.mem_reverse.mp hx)
  have hi := (foldl_inverse (wB P key (d.length / 8 - 1)) (wA P key (d.length / 8 - 1)) (WInv (d.length / 8 - 1))
    (wSchedule (d.length / 8 - 1)).reverse (fun s hs x hx => ⟨wB_inv L key _ s hs x (hlt x hx),
      wA_wB L key _ s hs x (hlt x hx)⟩) (d.take 8, d.drop 8) ⟨by simp; omega, by simp; omega⟩).1
  simp only [wPermInv, List.length_append, hi.1, hi.2]
  omega

theorem wPermInv_wPerm (d : Bytes) (h8 : 8 ≤ d.length) (hm : d.length % 8 = 0) : wPermInv P key (wPerm P key d) = d := by
  have hl := wPerm_length L key d h8 hm
  rw [wPermInv, hl]
  obtain ⟨h1, h2⟩ := foldl_inverse (wA P key (d.length / 8 - 1)) (wB P key (d.length / 8 - 1)) (WInv (d.length / 8 - 1))
    (wSchedule (d.length / 8 - 1)) (fun s hs x hx => ⟨wA_inv L key _ s hs x (wSchedule_lt _ x hx),
      wB_wA L key _ s hs x (wSchedule_lt _ x hx)⟩) (d.take 8, d.drop 8) ⟨by simp; omega, by simp; omega⟩
  rw [wPerm, List.take_left' h1.1, List.drop_left' h1.1, h2]
  exact List.take_append_drop 8 d

theorem wPerm_wPermInv (d : Bytes) (h8 : 8 ≤ d.length) (hm : d.length % 8 = 0) : wPerm P key (wPermInv P key d) = d := by
  have hl := wPermInv_length L key d h8 hm
  rw [wPerm, hl]
  have hlt : ∀ ij ∈ (wSchedule (d.length / 8 - 1)).reverse, ij.2 < d.length / 8 - 1 :=
    fun x hx => wSchedule_lt _ x (List.mem_reverse.mp hx)
  obtain ⟨h1, h2⟩ := foldl_inverse (wB P key (d.length / 8 - 1)) (wA P key (d.length / 8 - 1)) (WInv (d.length / 8 - 1))
    (wSchedule (d.length / 8 - 1)).reverse (fun s hs x hx => ⟨wB_inv L key _ s hs x (hlt x hx),
      wA_wB L key _ s hs x (hlt x hx)⟩) (d.take 8, d.drop 8) ⟨by simp; omega, by simp; omega⟩
  rw [List.reverse_reverse] at h2
  rw [wPermInv, List.take_left' h1.1, List.drop_left' h1.1, h2]
  exact List.take_append_drop 8 d

omit L in
theorem wrappingSize_eq (n : Nat) : wrappingSize n = 8 * ((n + 7) / 8) + 8 := by
  simp only [wrappingSize]; omega

omit L in
/-- The buffer `computeW` works on. -/
theorem computeW_buffer (iv x : Bytes) (hiv : iv.length = 8) :
    copyAt (copyAt (List.replicate (wrappingSize x.length) (0 : UInt8)) 0 iv) 8 x =
      iv ++ x ++ List.replicate (wrappingSize x.length - 8 - x.length) 0 := by
  have hs := wrappingSize_eq x.length
  rw [copyAt_zero _ _ (by simp; omega), hiv, List.drop_replicate, copyAt_fit _ _ _ (by simp; omega),
    List.take_left' hiv]
  rw [List.drop_append, List.drop_of_length_le (l := iv) (by omega), hiv, List.drop_replicate, List.nil_append]
  congr 2; omega

theorem computeW_eq (iv x : Bytes) (hiv : iv.length = 8) (h8 : 8 < x.length) (hx : x.length ≤ 2 ^ 31 - 1 - 16) :
    computeW P key iv x =
      .ok (wPerm P key (iv ++ x ++ List.replicate (wrappingSize x.length - 8 - x.length) 0)) := by
  have hs := wrappingSize_eq x.length
  have hc : ¬ (x.length ≤ 8 ∨ x.length > 2 ^ 31 - 1 - 16 ∨ iv.length ≠ 8) := by omega
  have hlen : (iv ++ x ++ List.replicate (wrappingSize x.length - 8 - x.length) (0 : UInt8)).length =
      wrappingSize x.length := by simp; omega
  rw [computeW, if_neg hc]
  simp only [computeW_buffer iv x hiv]
  congr 1
  exact computeW_loop L key _ (by omega) (by omega)

theorem invertW_eq (d : Bytes) (h24 : 24 ≤ d.length) (hm : d.length % 8 = 0) :
    invertW P key d = .ok (wPermInv P key d) := by
  rw [invertW, if_neg (by omega)]
  simp only
  congr 1
  exact invertW_loop L key d (by omega) hm

/-- The IV of a wrapping of `n` bytes. -/
def kwpIv (n : Nat) : Bytes := be32 ivPrefix ++ be32 n

omit L in
@[simp] theorem kwpIv_length (n : Nat) : (kwpIv n).length = 8 := rfl

/-- Plaintext buffer of a wrapping. -/
def kwpPlain (x : Bytes) : Bytes := kwpIv x.length ++ x ++ List.replicate (wrappingSize x.length - 8 - x.length) 0

omit L in
theorem kwpPlain_length (x : Bytes) : (kwpPlain x).length = wrappingSize x.length := by
  have hs := wrappingSize_eq x.length
  simp [kwpPlain]; omega

theorem kwpWrap_eq (x : Bytes) (h1 : 16 ≤ x.length) (h2 : x.length ≤ 8192) :
    kwpWrap P key x = .ok (wPerm P key (kwpPlain x)) := by
  rw [kwpWrap, if_neg (by simp [minWrapSize]; omega), if_neg (by simp [maxWrapSize]; omega)]
  exact computeW_eq L key (kwpIv x.length) x rfl (by omega) (by omega)

omit L in
/-- The checks of `Unwrap` accept exactly well-formed plaintext buffers. -/
theorem unwrapChecks_plain (x : Bytes) (hx : x.length < 2 ^ 32) :
    be32Val (kwpPlain x) = ivPrefix ∧ be32Val ((kwpPlain x).drop 4) = x.length ∧
      (kwpPlain x).drop (8 + x.length) = List.replicate (wrappingSize x.length - 8 - x.length) 0 ∧
      ((kwpPlain x).drop 8).take x.length = x := by
  refine ⟨?_, ?_, ?_, ?_⟩
  · rw [kwpPlain, kwpIv, List.append_assoc, List.append_assoc, be32Val_be32 _ (by decide)]
  · rw [kwpPlain, kwpIv, List.append_assoc, List.append_assoc, List.drop_left' (be32_length _), be32Val_be32 _ hx]
  · rw [kwpPlain, List.drop_left' (by simp)]
  · rw [kwpPlain, List.append_assoc, List.drop_left' (kwpIv_length _), List.take_left' rfl]

/-- Unwrapping W of a well-formed buffer. -/
theorem kwpUnwrap_perm (x : Bytes) (h9 : 9 ≤ x.length) (h2 : x.length ≤ 8192) :
    kwpUnwrap P key (wPerm P key (kwpPlain x)) = .ok x := by
  have hs := wrappingSize_eq x.length
  have hl := kwpPlain_length x
  have hp := wPerm_length L key (kwpPlain x) (by omega) (by omega)
  obtain ⟨c1, c2, c3, c4⟩ := unwrapChecks_plain x (by omega)
  rw [kwpUnwrap, if_neg (by simp [minWrapSize, wrappingSize_eq 16]; omega),
    if_neg (by simp [maxWrapSize, wrappingSize_eq 8192]; omega), if_neg (by omega),
    invertW_eq L key _ (by omega) (by omega), wPermInv_wPerm L key _ (by omega) (by omega)]
  simp only [c1, c2, c3, c4, hl]
  simp

omit L in
theorem be32_be32Val (u : Bytes) (h : 4 ≤ u.length) : be32 (be32Val u) = u.take 4 := by
  match u, h with
  | b0 :: b1 :: b2 :: b3 :: r, _ =>
    have t0 := toNat_lt b0; have t1 := toNat_lt b1; have t2 := toNat_lt b2; have t3 := toNat_lt b3
    have aux : ∀ (b : UInt8) (n : Nat), n % 256 = b.toNat → UInt8.ofNat n = b := by
      intro b n hn
      apply UInt8.toNat_inj.mp
      rw [UInt8.toNat_ofNat', hn]
    simp only [be32, be32Val, List.take_succ_cons, List.take_zero, List.getD_cons_zero, List.getD_cons_succ]
    rw [aux b0 _ (by omega), aux b1 _ (by omega), aux b2 _ (by omega), aux b3 _ (by omega)]

/-- What `Unwrap` accepts is W of the well-formed buffer of what it returns. -/
theorem kwpUnwrap_ok (c x : Bytes) (h : kwpUnwrap P key c = .ok x) :
    c = wPerm P key (kwpPlain x) ∧ 9 ≤ x.length ∧ x.length ≤ 8192 := by
  rw [kwpUnwrap] at h
  split at h; · simp at h
  rename_i h1
  split at h; · simp at h
  rename_i h2
  split at h; · simp at h
  rename_i h3
  have w16 : wrappingSize minWrapSize = 24 := rfl
  have w8192 : wrappingSize maxWrapSize = 8200 := rfl
  rw [w16] at h1; rw [w8192] at h2
  have hm : c.length % 8 = 0 := by omega
  rw [invertW_eq L key c (by omega) hm] at h
  have hul := wPermInv_length L key c (by omega) hm
  have hback := wPerm_wPermInv L key c (by omega) hm
  simp only at h
  generalize wPermInv P key c = u at h hul hback
  split at h; · simp at h
  rename_i h4
  split at h; · simp at h
  rename_i h5
  split at h; · simp at h
  rename_i h6
  simp only [ne_eq, Decidable.not_not] at h4 h5
  have hu5 := wrappingSize_eq (be32Val (u.drop 4))
  simp only [Except.ok.injEq] at h
  have hx : x.length = be32Val (u.drop 4) := by
    have hh := congrArg List.length h
    simp only [List.length_take, List.length_drop] at hh
    clear h4 h6
    omega
  have hu : u = kwpPlain x := by
    have e3 : u.drop (8 + be32Val (u.drop 4)) = List.replicate (wrappingSize x.length - 8 - x.length) 0 := by
      rw [List.eq_replicate_iff]
      refine ⟨by rw [hx]; simp; omega, fun b hb => ?_⟩
      simp only [ne_eq, decide_not, List.any_eq_true, not_exists, not_and, Bool.not_eq_true',
        decide_eq_false_iff_not, Decidable.not_not] at h6
      simpa using h6 b hb
    have e1 : u.take 8 = kwpIv x.length := by
      have h8 : 8 ≤ u.length := by omega
      rw [kwpIv, ← h4, hx, be32_be32Val _ (by omega), be32_be32Val _ (by simp; omega), ← List.take_add]
    rw [kwpPlain, ← e1, ← e3, ← h, List.append_assoc, ← List.drop_drop, List.take_append_drop, List.take_append_drop]
  refine ⟨by rw [← hu, hback], by omega, by omega⟩

end

end D1
