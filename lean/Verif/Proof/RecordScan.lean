import Verif.Model.RecordScan
import Verif.Proof.TileKey
import Verif.Spec.Tile
namespace Tiles
variable {V : Type}

theorem filter_append_filter {α : Type} {key : α → Nat} (l : List α)
    (hs : l.Pairwise (fun a b => key a < key b)) (P Q : α → Bool)
    (hPQ : ∀ a b, P a = true → Q b = true → key a < key b) :
    l.filter P ++ l.filter Q = l.filter (fun a => P a || Q a) := by
  induction l with
  | nil => rfl
  | cons e t ih =>
    rw [List.pairwise_cons] at hs
    have ih := ih hs.2
    cases hP : P e
    · cases hQ : Q e
      · simp [hP, hQ, ih]
      · have hnil : t.filter P = [] := by
          rw [List.filter_eq_nil_iff]
          intro a ha hPa
          have h1 := hPQ a e hPa hQ
          have h2 := hs.1 a ha
          omega
        rw [hnil] at ih
        simp only [List.nil_append] at ih
        simp [hP, hQ, hnil, ih]
    · have hQ : Q e = false := by
        cases hq : Q e
        · rfl
        · have := hPQ e e hP hq; omega
      simp [hP, hQ, ih]

theorem dropWhile_eq_filter {α : Type} {key : α → Nat} (l : List α)
    (hs : l.Pairwise (fun a b => key a < key b)) (b : Nat) :
    l.dropWhile (fun e => key e < b) = l.filter (fun e => b ≤ key e) := by
  induction l with
  | nil => rfl
  | cons e t ih =>
    rw [List.pairwise_cons] at hs
    by_cases h : key e < b
    · have h' : ¬ b ≤ key e := by omega
      simp [h, h', ih hs.2]
    · have h' : b ≤ key e := by omega
      simp only [List.dropWhile_cons, h, decide_false, List.filter_cons, h', decide_true]
      simp only [Bool.false_eq_true, if_false, if_true, List.cons.injEq, true_and]
      symm
      rw [List.filter_eq_self]
      intro a ha
      have := hs.1 a ha
      simp; omega

theorem takeWhile_eq_filter {α : Type} {key : α → Nat} (l : List α)
    (hs : l.Pairwise (fun a b => key a < key b)) (b : Nat) :
    l.takeWhile (fun e => key e < b) = l.filter (fun e => key e < b) := by
  induction l with
  | nil => rfl
  | cons e t ih =>
    rw [List.pairwise_cons] at hs
    by_cases h : key e < b
    · simp [h, ih hs.2]
    · simp only [List.takeWhile_cons, h, decide_false, List.filter_cons]
      simp only [Bool.false_eq_true, if_false]
      symm
      rw [List.filter_eq_nil_iff]
      intro a ha
      have := hs.1 a ha
      simp; omega

theorem scanRow_eq {db : List (UInt64 × V)} (hs : DbSorted db) (kb ke : UInt64) :
    scanRow db kb ke = db.filter (fun e => kb.toNat ≤ e.1.toNat && e.1.toNat < ke.toNat) := by
  have hs' : db.Pairwise (fun a b => (fun e : UInt64 × V => e.1.toNat) a
      < (fun e : UInt64 × V => e.1.toNat) b) := by
    simpa [DbSorted, UInt64.lt_iff_toNat_lt] using hs
  unfold scanRow
  simp only [UInt64.lt_iff_toNat_lt]
  rw [dropWhile_eq_filter (key := fun e : UInt64 × V => e.1.toNat) db hs',
    takeWhile_eq_filter (key := fun e : UInt64 × V => e.1.toNat) _ (hs'.filter _),
    List.filter_filter]
  congr 1; funext e; rw [Bool.and_comm]

theorem key_between (k : UInt64) (minx maxx y : Nat) (hx : minx ≤ maxx) (h : maxx < 2 ^ 21)
    (hy : y < 2 ^ 21) :
    (keyNat minx y 10 0 ≤ k.toNat ∧ k.toNat < keyNat maxx y 10 0) ↔
      ((keyToTile k).z = 10 ∧ (keyToTile k).y = y ∧ minx ≤ (keyToTile k).x ∧ (keyToTile k).x < maxx) := by
  have hk := k.toNat_lt
  rw [keyToTile_nat]
  simp only [keyNat]
  omega

theorem ofNat_lt {a : Nat} {b : Nat} (h : a < b) (hb : b ≤ 2 ^ 64) : (UInt64.ofNat a).toNat = a := by
  rw [UInt64.toNat_ofNat']; omega

theorem tileToKey_nat {x y z : Nat} (hx : x < 2 ^ 21) (hy : y < 2 ^ 21) (hz : z < 2 ^ 5) :
    ∃ k, tileToKey (UInt64.ofNat x) (UInt64.ofNat y) (UInt64.ofNat z) 0 = .ok k ∧
      k.toNat = keyNat x y z 0 := by
  have e1 := ofNat_lt hx (by decide)
  have e2 := ofNat_lt hy (by decide)
  have e3 := ofNat_lt hz (by decide)
  obtain ⟨k, h1, h2⟩ := tileToKey_ok (x := UInt64.ofNat x) (y := UInt64.ofNat y)
    (z := UInt64.ofNat z) (n := 0) (by omega) (by omega) (by omega) (by decide)
  exact ⟨k, h1, by rw [h2, e1, e2, e3]; rfl⟩

/-- tile of the entry lies in rows `[y, y+n)` and columns of `b` at zoom 10 -/
def inRows (b : TileBounds) (y n : Nat) (t : Tile) : Bool :=
  t.z == 10 && decide (y ≤ t.y) && decide (t.y < y + n) && decide (b.minx ≤ t.x) && decide (t.x < b.maxx)

theorem scanRows_eq {db : List (UInt64 × V)} (hs : DbSorted db) (b : TileBounds)
    (hx : b.minx ≤ b.maxx) (hmx : b.maxx < 2 ^ 21) (y n : Nat) (hy : y + n ≤ 2 ^ 21) :
    scanRows db b y n = .ok ((db.filter (fun e => inRows b y n (keyToTile e.1))).map
      (fun e => (keyToTile e.1, e.2))) := by
  induction n generalizing y with
  | zero =>
    have : db.filter (fun e => inRows b y 0 (keyToTile e.1)) = [] := by
      rw [List.filter_eq_nil_iff]
      intro e _ h
      simp only [inRows, Bool.and_eq_true, decide_eq_true_eq] at h
      omega
    simp [scanRows, this]
  | succ n ih =>
    obtain ⟨kb, hkb, hkbn⟩ := tileToKey_nat (x := b.minx) (y := y) (z := 10)
      (by omega) (by omega) (by decide)
    obtain ⟨ke, hke, hken⟩ := tileToKey_nat (x := b.maxx) (y := y) (z := 10)
      (by omega) (by omega) (by decide)
    rw [scanRows, kTileDefaultIndexZoomLvl, hkb, Res.ok_bind, hke, Res.ok_bind,
      ih (y + 1) (by omega), Res.ok_bind, scanRow_eq hs]
    congr 1
    rw [← List.map_append]
    congr 1
    have hs' : db.Pairwise (fun a b => (fun e : UInt64 × V => e.1.toNat) a
        < (fun e : UInt64 × V => e.1.toNat) b) := by
      simpa [DbSorted, UInt64.lt_iff_toNat_lt] using hs
    rw [filter_append_filter (key := fun e : UInt64 × V => e.1.toNat) db hs']
    · congr 1; funext e
      rw [Bool.eq_iff_iff]
      simp only [Bool.or_eq_true, Bool.and_eq_true, decide_eq_true_eq, inRows, beq_iff_eq,
        hkbn, hken, key_between e.1 b.minx b.maxx y hx hmx (by omega)]
      omega
    · intro a c ha hc
      simp only [Bool.and_eq_true, decide_eq_true_eq, inRows, beq_iff_eq,
        hkbn, hken, key_between a.1 b.minx b.maxx y hx hmx (by omega)] at ha hc
      rw [keyToTile_nat] at hc ha
      have := a.1.toNat_lt
      have := c.1.toNat_lt
      simp only at *
      omega

theorem div_eq_iff_bounds (a b d : Nat) (hd : 0 < d) : a / d = b ↔ b * d ≤ a ∧ a < (b + 1) * d := by
  constructor
  · rintro rfl
    exact ⟨Nat.div_mul_le_self a d, by
      have := Nat.lt_succ_self (a / d); exact (Nat.div_lt_iff_lt_mul hd).1 this⟩
  · rintro ⟨h1, h2⟩
    apply Nat.le_antisymm
    · exact Nat.le_of_lt_succ ((Nat.div_lt_iff_lt_mul hd).2 h2)
    · exact (Nat.le_div_iff_mul_le hd).2 h1

end Tiles
