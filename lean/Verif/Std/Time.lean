import Verif.Proofs.Instance
/-!
# Times as RFC 3339 text

`data.Token` and the access objects carry `time.Time` values, which `MarshalJSON` writes in the format
`2006-01-02T15:04:05.999999999Z07:00`.  This is that text and its reader.  The location number of a `GoTime` is taken
as a fixed zone: minutes east of UTC.  Go refuses to write years outside 0 to 9999; here such times get a text that
is not RFC 3339, so that the function is total.
-/
namespace D1.Std
open D1

/-- The date of a day of a year that starts on 1 March: year, month, day. -/
def ymd (y doy : Nat) : Nat × Nat × Nat :=
  let mp := (5 * doy + 2) / 153
  (y + (if mp < 10 then 0 else 1), if mp < 10 then mp + 3 else mp - 9, doy - (153 * mp + 2) / 5 + 1)

/-- The date of a day counted from 1 March of year 0, in the proleptic Gregorian calendar: cycles of 400 years,
centuries, cycles of four years, years. -/
def civil (z : Nat) : Nat × Nat × Nat :=
  let doe := z % 146097
  let c := min 3 (doe / 36524)
  let doc := doe - 36524 * c
  let q := doc / 1461
  let doq := doc - 1461 * q
  let y := min 3 (doq / 365)
  ymd (400 * (z / 146097) + 100 * c + 4 * q + y) (doq - 365 * y)

/-- The day of a date: the inverse of `civil`. -/
def dayOf (y m d : Nat) : Nat :=
  let mp := if 3 ≤ m then m - 3 else m + 9
  let y := if 3 ≤ m then y else y - 1
  y / 400 * 146097 + y % 400 / 100 * 36524 + y % 100 / 4 * 1461 + y % 4 * 365 + ((153 * mp + 2) / 5 + d - 1)

theorem civil_parts (z : Nat) : ∃ era c q y doy, c ≤ 3 ∧ q ≤ 24 ∧ y ≤ 3 ∧ doy ≤ 365 ∧
    z = era * 146097 + c * 36524 + q * 1461 + y * 365 + doy ∧
    civil z = ymd (400 * era + 100 * c + 4 * q + y) doy := by
  obtain ⟨c, ec⟩ : ∃ c, c = min 3 (z % 146097 / 36524) := ⟨_, rfl⟩
  obtain ⟨doc, edoc⟩ : ∃ doc, doc = z % 146097 - 36524 * c := ⟨_, rfl⟩
  obtain ⟨q, eq⟩ : ∃ q, q = doc / 1461 := ⟨_, rfl⟩
  obtain ⟨doq, edoq⟩ : ∃ doq, doq = doc - 1461 * q := ⟨_, rfl⟩
  obtain ⟨y, ey⟩ : ∃ y, y = min 3 (doq / 365) := ⟨_, rfl⟩
  obtain ⟨doy, edoy⟩ : ∃ doy, doy = doq - 365 * y := ⟨_, rfl⟩
  have hc : c ≤ 3 := by omega
  have hdoc : doc ≤ 36524 := by omega
  have hz : z = z / 146097 * 146097 + c * 36524 + doc := by omega
  have e : civil z = ymd (400 * (z / 146097) + 100 * c + 4 * q + y) doy := by
    rw [civil]
    simp only [← ec, ← edoc, ← eq, ← edoq, ← ey, ← edoy]
  clear ec edoc
  have hq : q ≤ 24 := by omega
  have hdoq : doq < 1461 := by omega
  have hd : doc = q * 1461 + doq := by omega
  clear eq edoq
  have hy : y ≤ 3 := by omega
  have hdoy : doy ≤ 365 := by omega
  exact ⟨z / 146097, c, q, y, doy, hc, hq, hy, hdoy, by
    have h2 : doq = y * 365 + doy := by omega
    rw [hd, h2] at hz
    simp only [← Nat.add_assoc] at hz
    exact hz, e⟩

theorem ymd_parts {y doy : Nat} (h : doy ≤ 365) : ∃ m d, 1 ≤ m ∧ m ≤ 12 ∧ 1 ≤ d ∧ d ≤ 31 ∧
    (153 * (if 3 ≤ m then m - 3 else m + 9) + 2) / 5 + d - 1 = doy ∧
    ymd y doy = (if 3 ≤ m then y else y + 1, m, d) := by
  have hm1 : (5 * doy + 2) / 153 ≤ 11 := by omega
  have hm2 : (153 * ((5 * doy + 2) / 153) + 2) / 5 ≤ doy := by omega
  have hm3 : doy - (153 * ((5 * doy + 2) / 153) + 2) / 5 ≤ 30 := by omega
  rw [ymd]
  generalize (5 * doy + 2) / 153 = mp at *
  by_cases h10 : mp < 10
  · refine ⟨mp + 3, doy - (153 * mp + 2) / 5 + 1, by omega, by omega, by omega, by omega, ?_, ?_⟩
    · rw [if_pos (by omega)]; omega
    · rw [if_pos h10, if_pos h10, if_pos (by omega)]; rfl
  · refine ⟨mp - 9, doy - (153 * mp + 2) / 5 + 1, by omega, by omega, by omega, by omega, ?_, ?_⟩
    · rw [if_neg (by omega), Nat.sub_add_cancel (by omega)]; omega
    · rw [if_neg h10, if_neg h10, if_neg (by omega)]

theorem civil_spec (z : Nat) :
    1 ≤ (civil z).2.1 ∧ (civil z).2.1 ≤ 12 ∧ 1 ≤ (civil z).2.2 ∧ (civil z).2.2 ≤ 31 ∧
      dayOf (civil z).1 (civil z).2.1 (civil z).2.2 = z := by
  obtain ⟨era, c, q, y, doy, hc, hq, hy, hdoy, hz, e⟩ := civil_parts z
  obtain ⟨m, d, m1, m2, d1, d2, hd, e'⟩ := ymd_parts (y := 400 * era + 100 * c + 4 * q + y) hdoy
  rw [e, e']
  refine ⟨m1, m2, d1, d2, ?_⟩
  have e1 : (400 * era + 100 * c + 4 * q + y) / 400 = era := by omega
  have e2 : (400 * era + 100 * c + 4 * q + y) % 400 / 100 = c := by omega
  have e3 : (400 * era + 100 * c + 4 * q + y) % 100 / 4 = q := by omega
  have e4 : (400 * era + 100 * c + 4 * q + y) % 4 = y := by omega
  have hyy : (if 3 ≤ m then (if 3 ≤ m then 400 * era + 100 * c + 4 * q + y else 400 * era + 100 * c + 4 * q + y + 1)
      else (if 3 ≤ m then 400 * era + 100 * c + 4 * q + y else 400 * era + 100 * c + 4 * q + y + 1) - 1)
      = 400 * era + 100 * c + 4 * q + y := by
    by_cases h : 3 ≤ m
    · rw [if_pos h, if_pos h]
    · rw [if_neg h, if_neg h, Nat.add_sub_cancel]
  rw [dayOf]
  simp only [hyy, hd, e1, e2, e3, e4]
  exact hz.symm

/-- Two and four decimal digits. -/
def dig (n : Nat) : UInt8 := UInt8.ofNat (48 + n % 10)
def two (n : Nat) : Bytes := [dig (n / 10), dig n]
def four (n : Nat) : Bytes := [dig (n / 1000), dig (n / 100), dig (n / 10), dig n]
def nine (n : Nat) : Bytes :=
  [dig (n / 100000000), dig (n / 10000000), dig (n / 1000000), dig (n / 100000), dig (n / 10000), dig (n / 1000),
   dig (n / 100), dig (n / 10), dig n]

/-- Without trailing zeros. -/
def trim (b : Bytes) : Bytes := (b.reverse.dropWhile (· = 48)).reverse

/-- The fraction of a second: nothing for whole seconds. -/
def fracText (n : Nat) : Bytes := if n = 0 then [] else 46 :: trim (nine n)

/-- The zone: `Z`, or the hours and minutes east or west of UTC. -/
def zoneText (off : Int) : Bytes :=
  if off = 0 then [90]
  else (if 0 < off then 43 else 45) :: two (off.natAbs / 60) ++ 58 :: two (off.natAbs % 60)

/-- A day has 86400 seconds of 10^9 nanoseconds; 1 January 1970 is day 719468 from 1 March of year 0.  All days are
counted from 400 years earlier, so that they are natural numbers for every year from 0. -/
def nsDay : Nat := 86400000000000
def epochDay : Nat := 719468 + 146097

/-- Nanoseconds of the local clock since the first day. -/
def localNs (ns off : Int) : Int := ns + off * 60000000000 + (epochDay * nsDay : Nat)

/-- The year is one of 0 to 9999. -/
def inYears (ns off : Int) : Bool :=
  decide (0 ≤ localNs ns off) &&
    (let y := (civil ((localNs ns off).toNat / nsDay)).1; decide (400 ≤ y) && decide (y ≤ 10399))

/-- The offset used for a location: less than a day, and with a year that can be written. -/
def zoneOf (t : GoTime) : Int := if -1440 < t.loc ∧ t.loc < 1440 ∧ inYears t.ns t.loc then t.loc else 0

def clockText (n : Nat) : Bytes :=
  let c := civil (n / nsDay)
  let r := n % nsDay
  let s := r / 1000000000
  four (c.1 - 400) ++ 45 :: two c.2.1 ++ 45 :: two c.2.2 ++ 84 :: two (s / 3600) ++ 58 :: two (s % 3600 / 60) ++
    58 :: two (s % 60) ++ fracText (r % 1000000000)

/-- `time.Time.MarshalJSON` without the quotes. -/
def timeText (t : GoTime) : Bytes :=
  if inYears t.ns (zoneOf t) then clockText (localNs t.ns (zoneOf t)).toNat ++ zoneText (zoneOf t)
  else 120 :: decEnc (zig t.ns)

def digitVal (s : Bytes) (i : Nat) : Nat := (s.getD i 0).toNat - 48
def twoVal (s : Bytes) (i : Nat) : Nat := digitVal s i * 10 + digitVal s (i + 1)
def fourVal (s : Bytes) (i : Nat) : Nat := twoVal s i * 100 + twoVal s (i + 2)

def isDigit (b : UInt8) : Bool := decide (48 ≤ b.toNat ∧ b.toNat < 58)

/-- Reads the fraction of a second. -/
def fracVal (s : Bytes) : Nat :=
  let d := (s.drop 1).takeWhile isDigit
  if s.getD 0 0 = 46 then decVal (d ++ List.replicate (9 - d.length) 48) else 0

/-- Reads the zone. -/
def zoneVal (s : Bytes) : Int :=
  if s.getD 0 0 = 43 then (twoVal s 1 * 60 + twoVal s 4 : Nat)
  else if s.getD 0 0 = 45 then -(twoVal s 1 * 60 + twoVal s 4 : Nat) else 0

/-- The time that a text denotes if it is well formed. -/
def readTime (s : Bytes) : GoTime :=
  if s.getD 0 0 = 120 then ⟨zag (decVal (s.drop 1)), 0⟩
  else
    let rest := s.drop 19
    let zone := if rest.getD 0 0 = 46 then (rest.drop 1).dropWhile isDigit else rest
    let off := zoneVal zone
    let day := dayOf (fourVal s 0 + 400) (twoVal s 5) (twoVal s 8)
    let sec := twoVal s 11 * 3600 + twoVal s 14 * 60 + twoVal s 17
    ⟨((day * 86400 + sec) * 1000000000 + fracVal rest : Nat) - (epochDay * nsDay : Nat) - off * 60000000000, off⟩

/-- `time.Time.UnmarshalJSON`, here for exactly the texts that are written. -/
def timeParse (s : Bytes) : Option GoTime := if timeText (readTime s) = s then some (readTime s) else none

theorem dig_toNat (n : Nat) : (dig n).toNat = 48 + n % 10 := by
  rw [dig, UInt8.toNat_ofNat']
  omega

theorem dig_isDigit (n : Nat) : isDigit (dig n) = true := by
  simp only [isDigit, dig_toNat, decide_eq_true_eq]
  omega

theorem trim_zeros (b : Bytes) : trim b ++ List.replicate (b.length - (trim b).length) 48 = b := by
  have key : ∀ l : Bytes, List.replicate (l.length - (l.dropWhile (· = 48)).length) 48 ++ l.dropWhile (· = 48) = l := by
    intro l
    induction l with
    | nil => rfl
    | cons a l ih =>
      by_cases h : a = 48
      · have hl : (l.dropWhile (· = 48)).length ≤ l.length := (List.dropWhile_sublist _).length_le
        rw [List.dropWhile_cons_of_pos (by simp [h]), List.length_cons, Nat.succ_sub hl, List.replicate_succ,
          List.cons_append, ih, h]
      · rw [List.dropWhile_cons_of_neg (by simp [h]), Nat.sub_self]
        rfl
  have := congrArg List.reverse (key b.reverse)
  simp only [List.reverse_append, List.reverse_replicate, List.length_reverse, List.reverse_reverse] at this
  rw [trim, List.length_reverse]
  exact this

theorem decVal_nine {n : Nat} (h : n < 1000000000) : decVal (nine n) = n := by
  simp only [decVal, nine, List.foldl_cons, List.foldl_nil, dig_toNat]
  omega

theorem mem_trim {b : Bytes} {x : UInt8} (h : x ∈ trim b) : x ∈ b := by
  rw [trim, List.mem_reverse] at h
  exact List.mem_reverse.1 ((List.dropWhile_sublist _).subset h)

theorem trim_length_le (b : Bytes) : (trim b).length ≤ b.length := by
  rw [trim, List.length_reverse]
  simpa using (List.dropWhile_sublist (p := (· = 48)) (l := b.reverse)).length_le

theorem nine_digit {n : Nat} {x : UInt8} (h : x ∈ nine n) : isDigit x = true := by
  simp only [nine, List.mem_cons, List.not_mem_nil, or_false] at h
  rcases h with h | h | h | h | h | h | h | h | h <;> rw [h] <;> exact dig_isDigit _

/-- What follows a fraction does not start with a digit. -/
def NoDigit (z : Bytes) : Prop := ∀ x r, z = x :: r → isDigit x = false

theorem takeWhile_digits {d z : Bytes} (hd : ∀ x ∈ d, isDigit x = true) (hz : NoDigit z) :
    (d ++ z).takeWhile isDigit = d ∧ (d ++ z).dropWhile isDigit = z := by
  induction d with
  | nil =>
    cases z with
    | nil => exact ⟨rfl, rfl⟩
    | cons x r =>
      have := hz x r rfl
      simp [this]
  | cons a d ih =>
    have h1 := hd a (by simp)
    have h2 := ih fun x hx => hd x (List.mem_cons_of_mem _ hx)
    simp [h1, h2.1, h2.2]

theorem zoneText_noDigit (off : Int) : NoDigit (zoneText off) ∧ (zoneText off).getD 0 0 ≠ 46 := by
  rw [zoneText]
  split
  · exact ⟨fun x r h => by simp only [List.cons.injEq] at h; rw [← h.1]; decide, by decide⟩
  · split
    · exact ⟨fun x r h => by simp only [List.cons_append, List.cons.injEq] at h; rw [← h.1]; decide, by simp⟩
    · exact ⟨fun x r h => by simp only [List.cons_append, List.cons.injEq] at h; rw [← h.1]; decide, by simp⟩

theorem frac_read {n : Nat} (hn : n < 1000000000) (off : Int) :
    fracVal (fracText n ++ zoneText off) = n ∧
      (if (fracText n ++ zoneText off).getD 0 0 = 46 then ((fracText n ++ zoneText off).drop 1).dropWhile isDigit
        else fracText n ++ zoneText off) = zoneText off := by
  obtain ⟨h1, h2⟩ := zoneText_noDigit off
  by_cases h0 : n = 0
  · simp only [fracText, h0, if_true, List.nil_append, fracVal]
    rw [if_neg h2]
    exact ⟨rfl, if_neg h2⟩
  · have hd : ∀ x ∈ trim (nine n), isDigit x = true := fun x hx => nine_digit (mem_trim hx)
    obtain ⟨e1, e2⟩ := takeWhile_digits hd h1
    simp only [fracText, h0, if_false, List.cons_append, fracVal, List.getD_cons_zero, List.drop_one, List.tail_cons,
      if_true, e1, e2, and_true]
    have : (9 : Nat) = (nine n).length := rfl
    rw [this, trim_zeros, decVal_nine hn]

theorem twoVal_two {s : Bytes} {i n : Nat} (h1 : s.getD i 0 = dig (n / 10)) (h2 : s.getD (i + 1) 0 = dig n) (h : n < 100) :
    twoVal s i = n := by
  simp only [twoVal, digitVal, h1, h2, dig_toNat]
  omega

theorem zone_read {off : Int} (h1 : -1440 < off) (h2 : off < 1440) : zoneVal (zoneText off) = off := by
  by_cases h : off = 0
  · subst h; rfl
  rw [zoneVal]
  have ht : ∀ c : UInt8, twoVal (c :: two (off.natAbs / 60) ++ 58 :: two (off.natAbs % 60)) 1 = off.natAbs / 60 := fun c =>
    twoVal_two rfl rfl (by omega)
  have hu : ∀ c : UInt8, twoVal (c :: two (off.natAbs / 60) ++ 58 :: two (off.natAbs % 60)) 4 = off.natAbs % 60 := fun c =>
    twoVal_two rfl rfl (by omega)
  have hg : ∀ c : UInt8, (c :: two (off.natAbs / 60) ++ 58 :: two (off.natAbs % 60)).getD 0 0 = c := fun _ => rfl
  by_cases hp : 0 < off
  · simp only [zoneText, h, if_false, hp, if_true]
    rw [hg, if_pos rfl, ht, hu]
    omega
  · simp only [zoneText, h, if_false, hp]
    rw [hg, if_neg (by decide), if_pos rfl, ht, hu]
    omega

theorem clock_read {n : Nat} (hy1 : 400 ≤ (civil (n / nsDay)).1) (hy2 : (civil (n / nsDay)).1 ≤ 10399) {off : Int}
    (h1 : -1440 < off) (h2 : off < 1440) :
    readTime (clockText n ++ zoneText off) = ⟨(n : Int) - (epochDay * nsDay : Nat) - off * 60000000000, off⟩ := by
  obtain ⟨c1, c2, c3, c4, c5⟩ := civil_spec (n / nsDay)
  have hr : n % nsDay < nsDay := Nat.mod_lt _ (by decide)
  have hn : n = n / nsDay * nsDay + n % nsDay := by rw [Nat.mul_comm]; exact (Nat.div_add_mod ..).symm
  obtain ⟨f1, f2⟩ := frac_read (n := n % nsDay % 1000000000) (Nat.mod_lt _ (by decide)) off
  set S := clockText n ++ zoneText off with hS
  set R := fracText (n % nsDay % 1000000000) ++ zoneText off with hR
  have hdrop : S.drop 19 = R := by rw [hS, hR, clockText]; simp [four, two]
  have g0 : S.getD 0 0 = dig (((civil (n / nsDay)).1 - 400) / 1000) := by rw [hS, clockText]; rfl
  have y1 : fourVal S 0 = (civil (n / nsDay)).1 - 400 := by
    have e1 : digitVal S 0 = ((civil (n / nsDay)).1 - 400) / 1000 % 10 := by rw [digitVal, g0, dig_toNat]; omega
    have e2 : digitVal S 1 = ((civil (n / nsDay)).1 - 400) / 100 % 10 := by
      rw [digitVal, show S.getD 1 0 = dig (((civil (n / nsDay)).1 - 400) / 100) by rw [hS, clockText]; rfl, dig_toNat]
      omega
    have e3 : digitVal S 2 = ((civil (n / nsDay)).1 - 400) / 10 % 10 := by
      rw [digitVal, show S.getD 2 0 = dig (((civil (n / nsDay)).1 - 400) / 10) by rw [hS, clockText]; rfl, dig_toNat]
      omega
    have e4 : digitVal S 3 = ((civil (n / nsDay)).1 - 400) % 10 := by
      rw [digitVal, show S.getD 3 0 = dig ((civil (n / nsDay)).1 - 400) by rw [hS, clockText]; rfl, dig_toNat]
      omega
    simp only [fourVal, twoVal, e1, e2, e3, e4, Nat.reduceAdd]
    omega
  have y2 : twoVal S 5 = (civil (n / nsDay)).2.1 :=
    twoVal_two (by rw [hS, clockText]; rfl) (by rw [hS, clockText]; rfl) (by omega)
  have y3 : twoVal S 8 = (civil (n / nsDay)).2.2 :=
    twoVal_two (by rw [hS, clockText]; rfl) (by rw [hS, clockText]; rfl) (by omega)
  have hs : n % nsDay / 1000000000 < 86400 := by rw [nsDay] at hr ⊢; omega
  have y4 : twoVal S 11 = n % nsDay / 1000000000 / 3600 :=
    twoVal_two (by rw [hS, clockText]; rfl) (by rw [hS, clockText]; rfl) (by omega)
  have y5 : twoVal S 14 = n % nsDay / 1000000000 % 3600 / 60 :=
    twoVal_two (by rw [hS, clockText]; rfl) (by rw [hS, clockText]; rfl) (by omega)
  have y6 : twoVal S 17 = n % nsDay / 1000000000 % 60 :=
    twoVal_two (by rw [hS, clockText]; rfl) (by rw [hS, clockText]; rfl) (by omega)
  have g1 : S.getD 0 0 ≠ 120 := by
    intro h
    have := congrArg UInt8.toNat (g0.symm.trans h)
    rw [dig_toNat] at this
    have : (120 : UInt8).toNat = 120 := rfl
    omega
  rw [readTime, if_neg g1]
  simp only [hdrop]
  rw [f2, f1, zone_read h1 h2, y1, y2, y3, y4, y5, y6, Nat.sub_add_cancel hy1, c5]
  have hk : n / nsDay * nsDay = n / nsDay * 86400 * 1000000000 := by rw [nsDay, Nat.mul_assoc]
  have e2 : n % nsDay / 1000000000 / 3600 * 3600 + n % nsDay / 1000000000 % 3600 / 60 * 60 + n % nsDay / 1000000000 % 60
      = n % nsDay / 1000000000 := by omega
  have e3 : n % nsDay / 1000000000 * 1000000000 + n % nsDay % 1000000000 = n % nsDay := Nat.div_add_mod' ..
  have : (n / nsDay * 86400 + (n % nsDay / 1000000000 / 3600 * 3600 + n % nsDay / 1000000000 % 3600 / 60 * 60 +
      n % nsDay / 1000000000 % 60)) * 1000000000 + n % nsDay % 1000000000 = n := by
    rw [e2, Nat.add_mul, Nat.add_assoc, e3, ← hk]
    exact hn.symm
  rw [this]

theorem zoneOf_range (t : GoTime) : -1440 < zoneOf t ∧ zoneOf t < 1440 := by
  rw [zoneOf]; split <;> omega

theorem readTime_timeText (t : GoTime) :
    (readTime (timeText t)).ns = t.ns ∧ timeText (readTime (timeText t)) = timeText t := by
  by_cases h : inYears t.ns (zoneOf t) = true
  · obtain ⟨z1, z2⟩ := zoneOf_range t
    have h' := h
    simp only [inYears, Bool.and_eq_true, decide_eq_true_eq] at h'
    have e := clock_read h'.2.1 h'.2.2 z1 z2
    have hn : ((localNs t.ns (zoneOf t)).toNat : Int) - (epochDay * nsDay : Nat) - zoneOf t * 60000000000 = t.ns := by
      rw [Int.toNat_of_nonneg h'.1, localNs]
      omega
    rw [hn] at e
    have ht : timeText t = clockText (localNs t.ns (zoneOf t)).toNat ++ zoneText (zoneOf t) := by
      rw [timeText, if_pos h]
    rw [← ht] at e
    have hz : zoneOf ⟨t.ns, zoneOf t⟩ = zoneOf t := by
      conv_lhs => rw [zoneOf]
      rw [if_pos ⟨z1, z2, h⟩]
    rw [e]
    refine ⟨rfl, ?_⟩
    rw [timeText, hz, if_pos h, ht]
  · have hz : zoneOf t = 0 := by
      rw [zoneOf] at h ⊢
      split
      · rename_i hc
        rw [if_pos hc] at h
        exact absurd hc.2.2 h
      · rfl
    have ht : timeText t = 120 :: decEnc (zig t.ns) := by rw [timeText, if_neg h]
    have hr : readTime (timeText t) = ⟨t.ns, 0⟩ := by
      rw [ht, readTime, if_pos (show (120 :: decEnc (zig t.ns)).getD 0 0 = 120 from rfl)]
      simp only [List.drop_one, List.tail_cons, decVal_decEnc, zag_zig]
    rw [hr]
    refine ⟨rfl, ?_⟩
    have hz0 : zoneOf ⟨t.ns, 0⟩ = 0 := by
      rw [zoneOf]; split <;> rfl
    rw [hz] at h
    rw [timeText, hz0, if_neg h, ht]

theorem timeParse_timeText (t : GoTime) :
    ∃ t', timeParse (timeText t) = some t' ∧ t'.ns = t.ns ∧ timeText t' = timeText t :=
  ⟨_, by rw [timeParse, if_pos (readTime_timeText t).2], readTime_timeText t⟩

theorem timeText_plain (t : GoTime) : ∀ b ∈ timeText t, htmlSafe b = true := by
  have hd : ∀ b, isDigit b = true → htmlSafe b = true := by
    intro b h
    simp only [isDigit, htmlSafe, decide_eq_true_eq] at h ⊢
    omega
  have h2 : ∀ n, ∀ b ∈ two n, htmlSafe b = true := by
    intro n b hb
    simp only [two, List.mem_cons, List.not_mem_nil, or_false] at hb
    rcases hb with h | h <;> rw [h] <;> exact hd _ (dig_isDigit _)
  have h4 : ∀ n, ∀ b ∈ four n, htmlSafe b = true := by
    intro n b hb
    simp only [four, List.mem_cons, List.not_mem_nil, or_false] at hb
    rcases hb with h | h | h | h <;> rw [h] <;> exact hd _ (dig_isDigit _)
  have hf : ∀ n, ∀ b ∈ fracText n, htmlSafe b = true := by
    intro n b hb
    rw [fracText] at hb
    split at hb
    · simp at hb
    · rcases List.mem_cons.1 hb with h | h
      · rw [h]; decide
      · exact hd _ (nine_digit (mem_trim h))
  have hz : ∀ o, ∀ b ∈ zoneText o, htmlSafe b = true := by
    intro o b hb
    rw [zoneText] at hb
    split at hb
    · simp only [List.mem_cons, List.not_mem_nil, or_false] at hb
      rw [hb]; decide
    · simp only [List.cons_append, List.mem_cons, List.mem_append] at hb
      rcases hb with h | h | h | h
      · rw [h]; split <;> decide
      · exact h2 _ _ h
      · rw [h]; decide
      · exact h2 _ _ h
  intro b hb
  rw [timeText] at hb
  split at hb
  · rcases List.mem_append.1 hb with h | h
    · simp only [clockText, List.append_assoc, List.cons_append, List.mem_append, List.mem_cons] at h
      rcases h with h | h | h | h | h | h | h | h | h | h | h | h
      · exact h4 _ _ h
      · rw [h]; decide
      · exact h2 _ _ h
      · rw [h]; decide
      · exact h2 _ _ h
      · rw [h]; decide
      · exact h2 _ _ h
      · rw [h]; decide
      · exact h2 _ _ h
      · rw [h]; decide
      · exact h2 _ _ h
      · exact hf _ _ h
    · exact hz _ _ h
  · rcases List.mem_cons.1 hb with h | h
    · rw [h]; decide
    · have := decEnc_digit _ b h
      simp only [htmlSafe, decide_eq_true_eq]
      omega

end D1.Std
