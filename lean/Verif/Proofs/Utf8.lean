import Verif.Model.Regex

/-!
# Encoding and decoding UTF-8
-/

namespace Litcheck.Regex

/-- A scalar value of Unicode. -/
def Scalar (v : Nat) : Prop := v < 0xD800 ∨ (0xE000 ≤ v ∧ v < 0x110000)

theorem toUInt8_eq {x : UInt8} {n : Nat} (h : x.toNat = n) : n.toUInt8 = x := by
  subst h; simp

theorem toUInt8_toNat {n : Nat} (h : n < 256) : n.toUInt8.toNat = n := by
  simp [Nat.toUInt8, UInt8.toNat_ofNat', Nat.mod_eq_of_lt h]

/-- What is decoded is what was encoded. -/
theorem decode_sound {b : Buf} {v n : Nat} (h : decode b = some (v, n)) :
    b.take n = encode v ∧ (encode v).length = n ∧ Scalar v := by
  unfold decode at h
  split at h
  · simp at h
  · rename_i x xs
    dsimp only at h
    have hx := x.toNat_lt
    split at h
    · simp only [Option.some.injEq, Prod.mk.injEq] at h
      obtain ⟨rfl, rfl⟩ := h
      rename_i h1
      refine ⟨?_, ?_, .inl (by omega)⟩
      · simp [encode, h1]
      · simp [encode, h1]
    · split at h
      · simp at h
      · split at h
        · split at h
          · rename_i y ys
            have hy := y.toNat_lt
            split at h
            · rename_i h1 h2 h3 hc
              simp only [Option.some.injEq, Prod.mk.injEq] at h
              simp only [isCont, Bool.and_eq_true, decide_eq_true_eq] at hc
              obtain ⟨rfl, rfl⟩ := h
              have e : encode ((x.toNat - 192) * 64 + (y.toNat - 128)) = [x, y] := by
                unfold encode
                rw [if_neg (by omega), if_pos (by omega)]
                rw [toUInt8_eq (x := x) (by omega), toUInt8_eq (x := y) (by omega)]
              rw [e]
              exact ⟨rfl, rfl, .inl (by omega)⟩
            · simp at h
          · simp at h
        · split at h
          · split at h
            · rename_i y z zs
              have hy := y.toNat_lt
              have hz := z.toNat_lt
              split at h
              · rename_i h1 h2 h3 h4 hc
                simp only [Option.some.injEq, Prod.mk.injEq] at h
                simp only [isCont, Bool.and_eq_true, decide_eq_true_eq, Bool.not_eq_true', Bool.and_eq_false_iff,
                  decide_eq_false_iff_not] at hc
                obtain ⟨rfl, rfl⟩ := h
                have e : encode (((x.toNat - 224) * 64 + (y.toNat - 128)) * 64 + (z.toNat - 128)) = [x, y, z] := by
                  unfold encode
                  rw [if_neg (by omega), if_neg (by omega), if_pos (by omega)]
                  rw [toUInt8_eq (x := x) (by omega), toUInt8_eq (x := y) (by omega), toUInt8_eq (x := z) (by omega)]
                rw [e]
                refine ⟨rfl, rfl, ?_⟩
                unfold Scalar; omega
              · simp at h
            · simp at h
          · split at h
            · rename_i y z w zs
              have hy := y.toNat_lt
              have hz := z.toNat_lt
              have hw := w.toNat_lt
              split at h
              · rename_i h1 h2 h3 h4 hc
                simp only [Option.some.injEq, Prod.mk.injEq] at h
                simp only [isCont, Bool.and_eq_true, decide_eq_true_eq] at hc
                obtain ⟨rfl, rfl⟩ := h
                have e : encode ((((x.toNat - 240) * 64 + (y.toNat - 128)) * 64 + (z.toNat - 128)) * 64 + (w.toNat - 128)) = [x, y, z, w] := by
                  unfold encode
                  rw [if_neg (by omega), if_neg (by omega), if_neg (by omega)]
                  rw [toUInt8_eq (x := x) (by omega), toUInt8_eq (x := y) (by omega), toUInt8_eq (x := z) (by omega),
                    toUInt8_eq (x := w) (by omega)]
                rw [e]
                refine ⟨rfl, rfl, ?_⟩
                unfold Scalar; omega
              · simp at h
            · simp at h

/-- What is encoded is decoded. -/
theorem decode_encode {v : Nat} (hv : Scalar v) (rest : Buf) : decode (encode v ++ rest) = some (v, (encode v).length) := by
  unfold Scalar at hv
  by_cases h1 : v < 128
  · have e : encode v = [v.toUInt8] := if_pos h1
    rw [e]
    unfold decode
    simp only [List.cons_append, toUInt8_toNat (show v < 256 by omega), if_pos h1, List.length_singleton]
  · by_cases h2 : v < 2048
    · have e : encode v = [(192 + v / 64).toUInt8, (128 + v % 64).toUInt8] := by unfold encode; rw [if_neg h1, if_pos h2]
      rw [e]
      unfold decode
      simp only [List.cons_append, isCont, toUInt8_toNat (show 192 + v / 64 < 256 by omega),
        toUInt8_toNat (show 128 + v % 64 < 256 by omega)]
      rw [if_neg (by omega), if_neg (by omega), if_pos (by omega), if_pos (by simp; omega)]
      refine congrArg some (Prod.ext ?_ rfl)
      dsimp only
      omega
    · by_cases h3 : v < 65536
      · have e : encode v = [(224 + v / 4096).toUInt8, (128 + v / 64 % 64).toUInt8, (128 + v % 64).toUInt8] := by
          unfold encode; rw [if_neg h1, if_neg h2, if_pos h3]
        rw [e]
        unfold decode
        simp only [List.cons_append, isCont, toUInt8_toNat (show 224 + v / 4096 < 256 by omega),
          toUInt8_toNat (show 128 + v / 64 % 64 < 256 by omega), toUInt8_toNat (show 128 + v % 64 < 256 by omega)]
        rw [if_neg (by omega), if_neg (by omega), if_neg (by omega), if_pos (by omega), if_pos (by simp; omega)]
        refine congrArg some (Prod.ext ?_ rfl)
        dsimp only
        omega
      · have e : encode v = [(240 + v / 262144).toUInt8, (128 + v / 4096 % 64).toUInt8, (128 + v / 64 % 64).toUInt8,
            (128 + v % 64).toUInt8] := by
          unfold encode; rw [if_neg h1, if_neg h2, if_neg h3]
        rw [e]
        unfold decode
        simp only [List.cons_append, isCont, toUInt8_toNat (show 240 + v / 262144 < 256 by omega),
          toUInt8_toNat (show 128 + v / 4096 % 64 < 256 by omega),
          toUInt8_toNat (show 128 + v / 64 % 64 < 256 by omega), toUInt8_toNat (show 128 + v % 64 < 256 by omega)]
        rw [if_neg (by omega), if_neg (by omega), if_neg (by omega), if_neg (by omega), if_pos (by simp; omega)]
        refine congrArg some (Prod.ext ?_ rfl)
        dsimp only
        omega

theorem encode_ne_nil (v : Nat) : encode v ≠ [] := by
  unfold encode; split
  · simp
  · split
    · simp
    · split <;> simp

theorem char_scalar (c : Char) : Scalar c.toNat := by
  have := c.valid
  unfold Scalar
  simp only [UInt32.isValidChar, Nat.isValidChar] at this
  unfold Char.toNat
  omega

theorem utf8_append (s t : Str) : utf8 (s ++ t) = utf8 s ++ utf8 t := by simp [utf8]

theorem utf8_cons (c : Char) (s : Str) : utf8 (c :: s) = encode c.toNat ++ utf8 s := by simp [utf8]

/-- Reading back a text. -/
theorem fromUtf8_utf8 : ∀ (s : Str) (n : Nat), s.length ≤ n → fromUtf8 n (utf8 s) = some s
  | [], n, _ => by cases n <;> rfl
  | c :: s, n, h => by
    rw [utf8_cons]
    cases n with
    | zero => simp at h
    | succ n =>
      have hd := decode_encode (char_scalar c) (utf8 s)
      cases he : encode c.toNat ++ utf8 s with
      | nil => simp [encode_ne_nil] at he
      | cons x xs =>
        rw [he] at hd
        unfold fromUtf8
        rw [hd]
        dsimp only
        rw [← he, List.drop_left, fromUtf8_utf8 s n (by simpa using h)]
        simp

/-- What is read is what was written. -/
theorem fromUtf8_sound : ∀ (n : Nat) (b : Buf) (s : Str), fromUtf8 n b = some s → utf8 s = b
  | _, [], s, h => by simp only [fromUtf8, Option.some.injEq] at h; subst h; rfl
  | 0, x :: xs, s, h => by simp [fromUtf8] at h
  | n + 1, x :: xs, s, h => by
    rw [fromUtf8.eq_def] at h
    dsimp only at h
    split at h
    · rename_i v k hd
      obtain ⟨h1, h2, h3⟩ := decode_sound hd
      simp only [Option.map_eq_some_iff] at h
      obtain ⟨t, ht, rfl⟩ := h
      have hv : (Char.ofNat v).toNat = v := by
        have : v.isValidChar := by unfold Scalar at h3; unfold Nat.isValidChar; omega
        simp [Char.ofNat, this, Char.toNat, Char.ofNatAux]
      rw [utf8_cons, hv, fromUtf8_sound n _ t ht, ← h1, List.take_append_drop]
    · simp at h

theorem encode_length_pos (v : Nat) : 1 ≤ (encode v).length := by
  have := encode_ne_nil v
  cases h : encode v with
  | nil => exact absurd h this
  | cons => simp

theorem utf8_length (s : Str) : s.length ≤ (utf8 s).length := by
  induction s with
  | nil => simp
  | cons c s ih => rw [utf8_cons]; have := encode_length_pos c.toNat; simp; omega

theorem utf8_injective {s t : Str} (h : utf8 s = utf8 t) : s = t := by
  have h1 := fromUtf8_utf8 s (s.length + t.length) (by omega)
  have h2 := fromUtf8_utf8 t (s.length + t.length) (by omega)
  rw [h, h2] at h1
  simpa using h1.symm

end Litcheck.Regex
