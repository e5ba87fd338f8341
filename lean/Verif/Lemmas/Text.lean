import Verif.Model.Text
import Verif.Lemmas.Names

/-! Lemmas about byte offsets. -/

namespace Lima

theorem dropBytes_iff (n : Nat) (s r : Str) :
    dropBytes n s = some r ↔ ∃ p, s = p ++ r ∧ byteLen p = n := by
  fun_induction dropBytes n s with
  | case1 s =>
    constructor
    · intro h; cases h; exact ⟨[], rfl, rfl⟩
    · rintro ⟨p, rfl, h⟩
      have := length_le_byteLen p
      have : p = [] := by apply List.eq_nil_of_length_eq_zero; omega
      simp [this]
  | case2 n =>
    simp only [reduceCtorEq, false_iff]
    rintro ⟨p, h, hn⟩
    have : p = [] := by simp_all
    subst this
    simp [byteLen] at hn
  | case3 n c cs h ih =>
    rw [ih]
    constructor
    · rintro ⟨p, hcs, hp⟩
      refine ⟨c :: p, by rw [hcs]; rfl, ?_⟩
      rw [byteLen_cons]
      clear ih
      omega
    · rintro ⟨p, hp, hn⟩
      cases p with
      | nil => simp [byteLen] at hn
      | cons d p =>
        simp only [List.cons_append, List.cons.injEq] at hp
        obtain ⟨rfl, rfl⟩ := hp
        rw [byteLen_cons] at hn
        exact ⟨p, rfl, by omega⟩
  | case4 n c cs h =>
    simp only [reduceCtorEq, false_iff]
    rintro ⟨p, hp, hn⟩
    cases p with
    | nil => simp [byteLen] at hn
    | cons d p =>
      simp only [List.cons_append, List.cons.injEq] at hp
      obtain ⟨rfl, rfl⟩ := hp
      rw [byteLen_cons] at hn
      omega

theorem takeBytes_iff (n : Nat) (s p : Str) :
    takeBytes n s = some p ↔ ∃ r, s = p ++ r ∧ byteLen p = n := by
  fun_induction takeBytes n s generalizing p with
  | case1 s =>
    constructor
    · intro h; cases h; exact ⟨s, rfl, rfl⟩
    · rintro ⟨r, rfl, h⟩
      have := length_le_byteLen p
      have : p = [] := by apply List.eq_nil_of_length_eq_zero; omega
      simp [this]
  | case2 n =>
    simp only [reduceCtorEq, false_iff]
    rintro ⟨r, h, hn⟩
    have : p = [] := by simp_all
    subst this
    simp [byteLen] at hn
  | case3 n c cs h ih =>
    rw [Option.map_eq_some_iff]
    constructor
    · rintro ⟨q, hq, rfl⟩
      obtain ⟨r, rfl, hr⟩ := (ih q).mp hq
      exact ⟨r, rfl, by rw [byteLen_cons]; omega⟩
    · rintro ⟨r, hp, hn⟩
      cases p with
      | nil => simp [byteLen] at hn
      | cons d p =>
        simp only [List.cons_append, List.cons.injEq] at hp
        obtain ⟨rfl, rfl⟩ := hp
        rw [byteLen_cons] at hn
        exact ⟨p, (ih p).mpr ⟨r, rfl, by omega⟩, rfl⟩
  | case4 n c cs h =>
    simp only [reduceCtorEq, false_iff]
    rintro ⟨r, hp, hn⟩
    cases p with
    | nil => simp [byteLen] at hn
    | cons d p =>
      simp only [List.cons_append, List.cons.injEq] at hp
      obtain ⟨rfl, rfl⟩ := hp
      rw [byteLen_cons] at hn
      omega

/-- A byte slice is what lies between a prefix of `a` bytes and a prefix of `b` bytes. -/
theorem slice_iff (s : Str) (a b : Nat) (m : Str) :
    slice s a b = some m ↔ ∃ p r, s = p ++ m ++ r ∧ byteLen p = a ∧ byteLen p + byteLen m = b := by
  unfold slice
  constructor
  · intro h
    split at h
    · rw [Option.bind_eq_some_iff] at h
      obtain ⟨x, h1, h2⟩ := h
      obtain ⟨p, rfl, hp⟩ := (dropBytes_iff a s x).mp h1
      obtain ⟨r, rfl, hr⟩ := (takeBytes_iff (b - a) x m).mp h2
      exact ⟨p, r, by rw [List.append_assoc], hp, by omega⟩
    · cases h
  · rintro ⟨p, r, rfl, h1, h2⟩
    rw [if_pos (by omega), Option.bind_eq_some_iff]
    refine ⟨m ++ r, (dropBytes_iff _ _ _).mpr ⟨p, by rw [List.append_assoc], h1⟩, ?_⟩
    exact (takeBytes_iff _ _ _).mpr ⟨r, rfl, by omega⟩

theorem slice_byteLen {s : Str} {a b : Nat} {m : Str} (h : slice s a b = some m) :
    a + byteLen m = b := by
  obtain ⟨p, r, _, h1, h2⟩ := (slice_iff s a b m).mp h
  omega

end Lima
