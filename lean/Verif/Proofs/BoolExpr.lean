import Verif.Spec.BoolExpr
import Verif.Proofs.Tac
import Verif.Proofs.Contracts
import Mathlib.Order.Basic
import Mathlib.Tactic.Set

/-!
# Proofs about the parser of feature expressions
-/

namespace Litcheck.BParse

open Litcheck.BSpec

/-- Reading the tokens `ts` from `st` leads to `st'`. -/
inductive Steps : St → List Tok → St → Prop
  | nil (st : St) : Steps st [] st
  | cons (st st1 st' : St) (ts : List Tok) :
      st.cur ≠ .eof → st.next = .ok st1 → Steps st1 ts st' → Steps st (st.cur :: ts) st'

theorem Steps.append {a b c : St} {s t : List Tok} (h : Steps a s b) (g : Steps b t c) : Steps a (s ++ t) c := by
  induction h with
  | nil => exact g
  | cons st st1 st' ts h1 h2 _ ih => exact .cons _ _ _ _ h1 h2 (ih g)

theorem Steps.single {a b : St} {t : Tok} (ht : t ≠ .eof) (h : a.cur = t) (g : a.next = .ok b) : Steps a [t] b := by
  subst h
  exact .cons _ _ _ _ ht g (.nil _)

theorem Steps.split {a c : St} {s t : List Tok} (h : Steps a (s ++ t) c) : ∃ b, Steps a s b ∧ Steps b t c := by
  induction s generalizing a with
  | nil => exact ⟨a, .nil _, h⟩
  | cons x xs ih =>
    cases h with
    | cons _ st1 _ _ h1 h2 h3 =>
      obtain ⟨b, hb, hc⟩ := ih h3
      exact ⟨b, .cons _ _ _ _ h1 h2 hb, hc⟩

theorem Steps.inv {a c : St} {x : Tok} {t : List Tok} (h : Steps a (x :: t) c) :
    a.cur = x ∧ x ≠ .eof ∧ ∃ b, a.next = .ok b ∧ Steps b t c := by
  cases h with
  | cons _ st1 _ _ h1 h2 h3 => exact ⟨rfl, h1, st1, h2, h3⟩

theorem Steps.nil_inv {a c : St} (h : Steps a [] c) : a = c := by cases h; rfl

/-! ## What is parsed is derived -/

theorem bind_ok' {ε α β : Type} {x : Except ε α} {f : α → Except ε β} {b : β} :
    (x >>= f) = .ok b ↔ ∃ a, x = .ok a ∧ f a = .ok b := by
  cases x with
  | error e => constructor
               · intro h; cases h
               · rintro ⟨a, h, _⟩; cases h
  | ok a => constructor
            · intro h; exact ⟨a, rfl, h⟩
            · rintro ⟨a', h, g⟩; cases h; exact g

theorem pure_ok' {ε α : Type} {x y : α} : (pure x : Except ε α) = .ok y ↔ x = y := by
  constructor
  · intro h; cases h; rfl
  · rintro rfl; rfl

theorem collect_sound : ∀ (n : Nat) (st : St) (ts : List Tok) (st' : St), collect n st = .ok (ts, st') →
    Steps st ts st' ∧ (∀ t ∈ ts, Part t) ∧ ¬Part st'.cur
  | 0, _, _, _, h => by simp [collect] at h
  | n + 1, st, ts, st', h => by
    unfold collect at h
    split at h
    · rename_i s hc
      obtain ⟨st1, h1, h⟩ := bind_ok'.1 h
      obtain ⟨⟨ts1, st2⟩, h2, h⟩ := bind_ok'.1 h
      have h := pure_ok'.1 h
      cases h
      obtain ⟨a, b, c⟩ := collect_sound n st1 ts1 _ h2
      refine ⟨hc ▸ .cons _ _ _ _ (by simp [hc]) h1 a, ?_, c⟩
      intro t ht
      rcases List.mem_cons.1 ht with rfl | ht
      · trivial
      · exact b t ht
    · rename_i s hc
      obtain ⟨st1, h1, h⟩ := bind_ok'.1 h
      obtain ⟨⟨ts1, st2⟩, h2, h⟩ := bind_ok'.1 h
      have h := pure_ok'.1 h
      cases h
      obtain ⟨a, b, c⟩ := collect_sound n st1 ts1 _ h2
      refine ⟨hc ▸ .cons _ _ _ _ (by simp [hc]) h1 a, ?_, c⟩
      intro t ht
      rcases List.mem_cons.1 ht with rfl | ht
      · trivial
      · exact b t ht
    · rename_i hc1 hc2
      cases h
      refine ⟨.nil _, by simp, ?_⟩
      revert hc1 hc2
      cases st.cur <;> simp [Part]

theorem flatMap_partText (ts : List Tok) : ts.flatMap partText = regexOf ts := by
  unfold regexOf
  rw [List.flatMap_def]
  congr 1

theorem matchParts_sound (rx : Rx) (ts : List Tok) (e : BExpr) (hp : ∀ t ∈ ts, Part t)
    (h : matchParts rx ts = .ok e) : Derives rx .not e ts := by
  unfold matchParts at h
  split at h
  · split at h
    · rename_i s
      cases h
      unfold nameExpr
      split
      · rename_i hs; subst hs; exact .litTrue
      · split
        · rename_i hs; subst hs; exact .litFalse
        · rename_i h1 h2; exact .var _ h1 h2
    · cases h
  · rename_i hall
    split at h
    · rename_i hc
      cases h
      rw [flatMap_partText] at hc ⊢
      refine .pattern _ hp ?_ hc
      simp only [List.all_eq_true, not_forall] at hall
      obtain ⟨t, ht, hn⟩ := hall
      have := hp t ht
      cases t <;> simp [Part, isIdentTok] at this hn
      exact ⟨_, ht⟩
    · cases h

theorem expect_ok {st st' : St} {t : Tok} (ht : t ≠ .eof) (h : st.expect t = .ok st') :
    st.cur = t ∧ st.next = .ok st' := by
  unfold St.expect at h
  split at h
  · rename_i hc
    rw [if_neg (by rw [hc]; exact ht)] at h
    exact ⟨hc, h⟩
  · split at h <;> cases h

theorem sound (rx : Rx) : ∀ n : Nat,
    (∀ (st : St) (e : BExpr) (st' : St), orExpr rx n st = .ok (e, st') →
      ∃ ts, Steps st ts st' ∧ Derives rx .or e ts) ∧
    (∀ (a : BExpr) (st : St) (e : BExpr) (st' : St), orLoop rx n a st = .ok (e, st') →
      ∃ ts, Steps st ts st' ∧ ∀ s, Derives rx .or a s → Derives rx .or e (s ++ ts)) ∧
    (∀ (st : St) (e : BExpr) (st' : St), andExpr rx n st = .ok (e, st') →
      ∃ ts, Steps st ts st' ∧ Derives rx .and e ts) ∧
    (∀ (a : BExpr) (st : St) (e : BExpr) (st' : St), andLoop rx n a st = .ok (e, st') →
      ∃ ts, Steps st ts st' ∧ ∀ s, Derives rx .and a s → Derives rx .and e (s ++ ts)) ∧
    (∀ (st : St) (e : BExpr) (st' : St), notExpr rx n st = .ok (e, st') →
      ∃ ts, Steps st ts st' ∧ Derives rx .not e ts) := by
  intro n
  induction n with
  | zero => refine ⟨?_, ?_, ?_, ?_, ?_⟩ <;> intros <;> simp_all [orExpr, orLoop, andExpr, andLoop, notExpr]
  | succ n ih =>
    obtain ⟨iOr, iOrL, iAnd, iAndL, iNot⟩ := ih
    refine ⟨?_, ?_, ?_, ?_, ?_⟩
    · intro st e st' h
      unfold orExpr at h
      obtain ⟨⟨a, st1⟩, h1, h2⟩ := bind_ok'.1 h
      obtain ⟨t1, s1, d1⟩ := iAnd _ _ _ h1
      obtain ⟨t2, s2, d2⟩ := iOrL _ _ _ _ h2
      exact ⟨t1 ++ t2, s1.append s2, d2 _ (.orAnd _ _ d1)⟩
    · intro a st e st' h
      unfold orLoop at h
      split at h
      · rename_i hc
        obtain ⟨st1, h1, h⟩ := bind_ok'.1 h
        obtain ⟨⟨b, st2⟩, h2, h3⟩ := bind_ok'.1 h
        obtain ⟨t2, s2, d2⟩ := iAnd _ _ _ h2
        obtain ⟨t3, s3, d3⟩ := iOrL _ _ _ _ h3
        refine ⟨[.or] ++ (t2 ++ t3), (Steps.single (by simp) hc h1).append (s2.append s3), ?_⟩
        intro s ds
        have := d3 _ (.or _ _ _ _ ds d2)
        simpa using this
      · cases h
        exact ⟨[], .nil _, fun s ds => by simpa using ds⟩
    · intro st e st' h
      unfold andExpr at h
      obtain ⟨⟨a, st1⟩, h1, h2⟩ := bind_ok'.1 h
      obtain ⟨t1, s1, d1⟩ := iNot _ _ _ h1
      obtain ⟨t2, s2, d2⟩ := iAndL _ _ _ _ h2
      exact ⟨t1 ++ t2, s1.append s2, d2 _ (.andNot _ _ d1)⟩
    · intro a st e st' h
      unfold andLoop at h
      split at h
      · rename_i hc
        obtain ⟨st1, h1, h⟩ := bind_ok'.1 h
        obtain ⟨⟨b, st2⟩, h2, h3⟩ := bind_ok'.1 h
        obtain ⟨t2, s2, d2⟩ := iNot _ _ _ h2
        obtain ⟨t3, s3, d3⟩ := iAndL _ _ _ _ h3
        refine ⟨[.and] ++ (t2 ++ t3), (Steps.single (by simp) hc h1).append (s2.append s3), ?_⟩
        intro s ds
        have := d3 _ (.and _ _ _ _ ds d2)
        simpa using this
      · cases h
        exact ⟨[], .nil _, fun s ds => by simpa using ds⟩
    · intro st e st' h
      unfold notExpr at h
      split at h
      · rename_i hc
        obtain ⟨st1, h1, h⟩ := bind_ok'.1 h
        obtain ⟨⟨a, st2⟩, h2, h⟩ := bind_ok'.1 h
        have h := pure_ok'.1 h
        cases h
        obtain ⟨t, s, d⟩ := iNot _ _ _ h2
        exact ⟨.not :: t, (Steps.single (by simp) hc h1).append s, .not _ _ d⟩
      · rename_i hc
        obtain ⟨st1, h1, h⟩ := bind_ok'.1 h
        obtain ⟨⟨a, st2⟩, h2, h⟩ := bind_ok'.1 h
        obtain ⟨st3, h3, h⟩ := bind_ok'.1 h
        have h := pure_ok'.1 h
        cases h
        obtain ⟨t, s, d⟩ := iOr _ _ _ h2
        obtain ⟨hr, hn⟩ := expect_ok (by simp) h3
        exact ⟨[.lparen] ++ t ++ [.rparen],
          ((Steps.single (by simp) hc h1).append s).append (Steps.single (by simp) hr hn), .paren _ _ d⟩
      · obtain ⟨⟨ps, st1⟩, h1, h⟩ := bind_ok'.1 h
        obtain ⟨a, h2, h⟩ := bind_ok'.1 h
        have h := pure_ok'.1 h
        cases h
        obtain ⟨a1, a2, _⟩ := collect_sound _ _ _ _ h1
        exact ⟨ps, a1, matchParts_sound rx ps _ a2 h2⟩
      · obtain ⟨⟨ps, st1⟩, h1, h⟩ := bind_ok'.1 h
        obtain ⟨a, h2, h⟩ := bind_ok'.1 h
        have h := pure_ok'.1 h
        cases h
        obtain ⟨a1, a2, _⟩ := collect_sound _ _ _ _ h1
        exact ⟨ps, a1, matchParts_sound rx ps _ a2 h2⟩
      · cases h
      · cases h

/-! ## What is derived is parsed -/

/-- `r` is reached with enough fuel. -/
theorem collect_complete : ∀ (ts : List Tok) (st st' : St), Steps st ts st' → (∀ t ∈ ts, Part t) → ¬Part st'.cur →
    ∃ N, ∀ n, N ≤ n → collect n st = .ok (ts, st')
  | [], st, st', h, _, hn => by
    have := h.nil_inv
    subst this
    refine ⟨1, ?_⟩
    rintro (_ | n) h
    · omega
    · unfold collect
      revert hn
      cases st.cur <;> simp [Part]
  | t :: ts, st, st', h, hp, hn => by
    obtain ⟨hc, _, st1, h1, h2⟩ := h.inv
    obtain ⟨N, hN⟩ := collect_complete ts st1 st' h2 (fun t ht => hp t (by simp [ht])) hn
    refine ⟨N + 1, ?_⟩
    rintro (_ | n) h
    · omega
    · have ht := hp t (by simp)
      unfold collect
      rw [hc]
      cases t <;> simp only [Part] at ht <;> rw [h1] <;> show (do let (ts, st) ← collect n st1; _) = _ <;>
        rw [hN n (by omega)] <;> rfl

theorem matchParts_complete (rx : Rx) (parts : List Tok) (hp : ∀ t ∈ parts, Part t)
    (hx : ∃ p, Tok.pattern p ∈ parts) (hc : rx.compiles (regexOf parts) = true) :
    matchParts rx parts = .ok (.pattern (regexOf parts)) := by
  unfold matchParts
  rw [if_neg, flatMap_partText, if_pos hc]
  obtain ⟨p, hp⟩ := hx
  simp only [List.all_eq_true, not_forall]
  exact ⟨_, hp, by simp [isIdentTok]⟩

/-- The token after a derivation of a level must not continue it. -/
def Stops : Level → Tok → Prop
  | .or, t => ¬Part t ∧ t ≠ .and ∧ t ≠ .or
  | .and, t => ¬Part t ∧ t ≠ .and
  | .not, t => ¬Part t

theorem complete (rx : Rx) (l : Level) (e : BExpr) (ts : List Tok) (h : Derives rx l e ts) :
    ∀ st st', Steps st ts st' →
      match l with
      | .or => (¬Part st'.cur ∧ st'.cur ≠ .and) → ∀ M r, (∀ n, M ≤ n → orLoop rx n e st' = .ok r) →
          ∃ N, ∀ n, N ≤ n → orExpr rx n st = .ok r
      | .and => ¬Part st'.cur → ∀ M r, (∀ n, M ≤ n → andLoop rx n e st' = .ok r) →
          ∃ N, ∀ n, N ≤ n → andExpr rx n st = .ok r
      | .not => ¬Part st'.cur → ∃ N, ∀ n, N ≤ n → notExpr rx n st = .ok (e, st') := by
  have hnot : ∀ (e : BExpr) (st st' : St) (ts : List Tok), ts ≠ [] → (∀ t ∈ ts, Part t) → Steps st ts st' →
      ¬Part st'.cur → matchParts rx ts = .ok e → ∃ N, ∀ n, N ≤ n → notExpr rx n st = .ok (e, st') := by
    intro e st st' ts hne hp hs hn hm
    obtain ⟨N, hN⟩ := collect_complete ts st st' hs hp hn
    refine ⟨N + 1, ?_⟩
    rintro (_ | n) h
    · omega
    · cases ts with
      | nil => exact absurd rfl hne
      | cons t ts =>
        obtain ⟨hc, _, _⟩ := hs.inv
        have ht := hp t (by simp)
        unfold notExpr
        rw [hc]
        cases t <;> simp only [Part] at ht <;> simp only [] <;> rw [hN n (by omega)] <;>
          show (do let e ← matchParts rx _; _) = _ <;> rw [hm] <;> rfl
  induction h with
  | or a b s t _ _ iha ihb =>
    intro st st' hs
    simp only
    intro hstop M r hr
    obtain ⟨st1, h1, h2⟩ := Steps.split hs
    obtain ⟨st0, h0, h1⟩ := Steps.split h1
    obtain ⟨hc, _, st2, hn, h3⟩ := h1.inv
    have := h3.nil_inv
    subst this
    have ihb := ihb st2 st' h2
    simp only at ihb
    obtain ⟨N, hN⟩ := ihb hstop.1 1 (b, st') (by
      rintro (_ | n) h
      · omega
      · unfold andLoop; rw [if_neg hstop.2])
    have iha := iha st st0 h0
    simp only at iha
    refine iha (by rw [hc]; simp [Part]) (max M N + 1) r ?_
    rintro (_ | n) h
    · omega
    · unfold orLoop
      rw [if_pos hc, hn]
      show (do let (r, st) ← andExpr rx n st2; _) = _
      rw [hN n (by omega)]
      exact hr n (by omega)
  | orAnd a s _ ih =>
    intro st st' hs
    simp only
    intro hstop M r hr
    have ih := ih st st' hs
    simp only at ih
    obtain ⟨N, hN⟩ := ih hstop.1 1 (a, st') (by
      rintro (_ | n) h
      · omega
      · unfold andLoop; rw [if_neg hstop.2])
    refine ⟨max M N + 1, ?_⟩
    rintro (_ | n) h
    · omega
    · unfold orExpr
      rw [hN n (by omega)]
      exact hr n (by omega)
  | and a b s t _ _ iha ihb =>
    intro st st' hs
    simp only
    intro hstop M r hr
    obtain ⟨st1, h1, h2⟩ := Steps.split hs
    obtain ⟨st0, h0, h1⟩ := Steps.split h1
    obtain ⟨hc, _, st2, hn, h3⟩ := h1.inv
    have := h3.nil_inv
    subst this
    have ihb := ihb st2 st' h2
    simp only at ihb
    obtain ⟨N, hN⟩ := ihb hstop
    have iha := iha st st0 h0
    simp only at iha
    refine iha (by rw [hc]; simp [Part]) (max M N + 1) r ?_
    rintro (_ | n) h
    · omega
    · unfold andLoop
      rw [if_pos hc, hn]
      show (do let (r, st) ← notExpr rx n st2; _) = _
      rw [hN n (by omega)]
      exact hr n (by omega)
  | andNot a s _ ih =>
    intro st st' hs
    simp only
    intro hstop M r hr
    have ih := ih st st' hs
    simp only at ih
    obtain ⟨N, hN⟩ := ih hstop
    refine ⟨max M N + 1, ?_⟩
    rintro (_ | n) h
    · omega
    · unfold andExpr
      rw [hN n (by omega)]
      exact hr n (by omega)
  | not a s _ ih =>
    intro st st' hs
    simp only
    intro hstop
    obtain ⟨hc, _, st1, hn, h1⟩ := hs.inv
    have ih := ih st1 st' h1
    simp only at ih
    obtain ⟨N, hN⟩ := ih hstop
    refine ⟨N + 1, ?_⟩
    rintro (_ | n) h
    · omega
    · unfold notExpr
      rw [hc]
      simp only []
      rw [hn]
      show (do let (e, st) ← notExpr rx n st1; _) = _
      rw [hN n (by omega)]
      rfl
  | paren a s _ ih =>
    intro st st' hs
    simp only
    intro hstop
    obtain ⟨st1, h1, h2⟩ := Steps.split hs
    obtain ⟨st0, h0, h1⟩ := Steps.split h1
    obtain ⟨hc, _, st3, hn, h3⟩ := h0.inv
    have := h3.nil_inv
    subst this
    obtain ⟨hc', _, st4, hn', h4⟩ := h2.inv
    have := h4.nil_inv
    subst this
    have ih := ih st3 st1 h1
    simp only at ih
    obtain ⟨N, hN⟩ := ih (by rw [hc']; simp [Part]) 1 (a, st1) (by
      rintro (_ | n) h
      · omega
      · unfold orLoop; rw [if_neg (by rw [hc']; simp)])
    refine ⟨N + 1, ?_⟩
    rintro (_ | n) h
    · omega
    · unfold notExpr
      rw [hc]
      simp only []
      rw [hn]
      show (do let (e, st) ← orExpr rx n st3; _) = _
      rw [hN n (by omega)]
      show (do let st ← st1.expect .rparen; _) = _
      have : st1.expect .rparen = .ok st4 := by
        unfold St.expect
        rw [if_pos hc', if_neg (by rw [hc']; simp), hn']
      rw [this]
      rfl
  | litTrue =>
    intro st st' hs
    simp only
    intro hstop
    exact hnot _ st st' _ (by simp) (by simp [Part]) hs hstop rfl
  | litFalse =>
    intro st st' hs
    simp only
    intro hstop
    exact hnot _ st st' _ (by simp) (by simp [Part]) hs hstop rfl
  | var s h1 h2 =>
    intro st st' hs
    simp only
    intro hstop
    refine hnot _ st st' _ (by simp) (by simp [Part]) hs hstop ?_
    show Except.ok (nameExpr s) = _
    unfold nameExpr
    rw [if_neg (show ¬s = ['t', 'r', 'u', 'e'] from h1), if_neg (show ¬s = ['f', 'a', 'l', 's', 'e'] from h2)]
  | pattern parts hp hx hcomp =>
    intro st st' hs
    simp only
    intro hstop
    refine hnot _ st st' _ ?_ hp hs hstop (matchParts_complete rx parts hp hx hcomp)
    obtain ⟨p, hp⟩ := hx
    rintro rfl
    simp at hp

/-! ## The recursion bound -/

def St.size (st : St) : Nat := st.rest.length + (if st.cur = .eof then 0 else 1)

theorem peek_tail {r : Str} {c : Char} (hc : c ≠ '\x00') (h : peek r = c) : r = c :: r.tail := by
  cases r with
  | nil => exact absurd h.symm hc
  | cons a r => simp only [peek, List.headD_cons] at h; subst h; rfl

theorem lexPattern_length {r : Str} {t : Tok} {r' : Str} (h : lexPattern r = .ok (t, r')) :
    r'.length < r.length + 1 := by
  unfold lexPattern at h
  simp only at h
  set body := (if peek r = '{' then r.tail else '{' :: r) with hbody
  have hb : body.length ≤ r.length + 1 := by
    rw [hbody]; split <;> simp; omega
  split at h
  · cases h
  · rename_i c r1 hd
    have h1 : r1.length + 1 ≤ body.length := by
      have := (List.dropWhile_sublist (fun c => c != '}' && c != '\x00') (l := body)).length_le
      rw [hd] at this; simpa using this
    split at h
    · split at h
      · split at h
        · cases h
        · cases h
          simp only [List.length_tail]
          omega
      · split at h <;> cases h
    · cases h

theorem lexHead_length {s : Str} {t : Tok} {r : Str} (h : lexHead s = .ok (t, r)) :
    r.length ≤ s.length ∧ (t ≠ .eof → r.length < s.length) := by
  cases s with
  | nil => cases h; simp
  | cons c s =>
    rw [lexHead] at h
    by_cases h0 : c = '\x00'
    · rw [if_pos h0] at h; cases h; simp
    rw [if_neg h0] at h
    suffices r.length < s.length + 1 by simp only [List.length_cons]; omega
    by_cases h1 : c = '('
    · rw [if_pos h1] at h; cases h; omega
    rw [if_neg h1] at h
    by_cases h2 : c = ')'
    · rw [if_pos h2] at h; cases h; omega
    rw [if_neg h2] at h
    by_cases h3 : c = '&'
    · rw [if_pos h3] at h
      split at h
      · cases h; simp only [List.length_tail]; omega
      · split at h <;> cases h
    rw [if_neg h3] at h
    by_cases h4 : c = '|'
    · rw [if_pos h4] at h
      split at h
      · cases h; simp only [List.length_tail]; omega
      · split at h <;> cases h
    rw [if_neg h4] at h
    by_cases h5 : c = '!'
    · rw [if_pos h5] at h; cases h; omega
    rw [if_neg h5] at h
    by_cases h6 : isIdent c
    · rw [if_pos h6] at h
      cases h
      rw [List.dropWhile_cons_of_pos h6]
      have := (List.dropWhile_sublist isIdent (l := s)).length_le
      omega
    rw [if_neg h6] at h
    by_cases h7 : c = '{'
    · rw [if_pos h7] at h; exact lexPattern_length h
    rw [if_neg h7] at h
    cases h

theorem lex_length {s : Str} {t : Tok} {r : Str} (h : lex s = .ok (t, r)) :
    r.length ≤ s.length ∧ (t ≠ .eof → r.length < s.length) := by
  have h1 := lexHead_length h
  have h2 := (List.dropWhile_sublist isWs (l := s)).length_le
  exact ⟨by omega, fun ht => by have := h1.2 ht; omega⟩

theorem next_size {st st' : St} (h : st.next = .ok st') : st'.size ≤ st.rest.length := by
  unfold St.next at h
  split at h
  · rename_i t r hl
    cases h
    have := lex_length hl
    unfold St.size
    simp only
    split
    · omega
    · rename_i ht; have := this.2 ht; omega
  · cases h

theorem next_lt {st st' : St} (hc : st.cur ≠ .eof) (h : st.next = .ok st') : st'.size < st.size := by
  have := next_size h
  unfold St.size at this ⊢
  rw [if_neg hc]
  omega

theorem Steps.size_le {a b : St} {ts : List Tok} (h : Steps a ts b) : b.size + ts.length ≤ a.size := by
  induction h with
  | nil => simp
  | cons st st1 st' ts h1 h2 _ ih =>
    have := next_lt h1 h2
    simp only [List.length_cons]
    omega

theorem lexPattern_ne_fuel (r : Str) : lexPattern r ≠ .error .fuel := by
  unfold lexPattern
  simp only
  split
  · simp
  · split
    · by_cases hp : peek ‹_› = '}'
      · rw [if_pos hp]
        generalize List.takeWhile _ _ = p
        split <;> simp
      · rw [if_neg hp]
        split <;> simp
    · simp

theorem lexHead_ne_fuel (s : Str) : lexHead s ≠ .error .fuel := by
  cases s with
  | nil => simp [lexHead]
  | cons c r =>
    rw [lexHead]
    split
    · simp
    split
    · simp
    split
    · simp
    split
    · split
      · simp
      · split <;> simp
    split
    · split
      · simp
      · split <;> simp
    split
    · simp
    split
    · simp
    split
    · exact lexPattern_ne_fuel r
    · simp

theorem next_ne_fuel (st : St) : st.next ≠ .error .fuel := by
  unfold St.next
  split
  · simp
  · rename_i e he
    intro h
    cases h
    exact lexHead_ne_fuel _ he

theorem expect_ne_fuel (st : St) (t : Tok) : st.expect t ≠ .error .fuel := by
  unfold St.expect
  split
  · split
    · simp
    · exact next_ne_fuel st
  · split <;> simp

theorem bind_congr' {ε α β : Type} {x : Except ε α} {f g : α → Except ε β} (h : ∀ a, x = .ok a → f a = g a) :
    (x >>= f) = (x >>= g) := by
  cases x with
  | error e => rfl
  | ok a => exact h a rfl

theorem bind_ne {ε α β : Type} {x : Except ε α} {f : α → Except ε β} {e : ε} (hx : x ≠ .error e)
    (h : ∀ a, x = .ok a → f a ≠ .error e) : (x >>= f) ≠ .error e := by
  cases x with
  | error e' => intro g; exact hx (by cases g; rfl)
  | ok a => exact h a rfl

theorem collect_fuel : ∀ (n : Nat) (st : St), st.size + 1 ≤ n →
    collect n st = collect (n + 1) st ∧ collect n st ≠ .error .fuel
  | 0, _, h => by omega
  | n + 1, st, h => by
    have key : ∀ st1, st.cur ≠ .eof → st.next = .ok st1 →
        collect n st1 = collect (n + 1) st1 ∧ collect n st1 ≠ .error .fuel := by
      intro st1 hc h1
      have := next_lt hc h1
      exact collect_fuel n st1 (by omega)
    constructor
    · rw [collect, collect]
      split
      · rename_i s hc
        refine bind_congr' fun st1 h1 => ?_
        rw [(key st1 (by simp [hc]) h1).1]
      · rename_i s hc
        refine bind_congr' fun st1 h1 => ?_
        rw [(key st1 (by simp [hc]) h1).1]
      · rfl
    · rw [collect]
      split
      · rename_i s hc
        exact bind_ne (next_ne_fuel st) fun st1 h1 => bind_ne (key st1 (by simp [hc]) h1).2 fun a _ => by simp [pure, Except.pure]
      · rename_i s hc
        exact bind_ne (next_ne_fuel st) fun st1 h1 => bind_ne (key st1 (by simp [hc]) h1).2 fun a _ => by simp [pure, Except.pure]
      · simp

theorem matchParts_ne_fuel (rx : Rx) (ts : List Tok) : matchParts rx ts ≠ .error .fuel := by
  unfold matchParts
  split
  · split <;> simp
  · split <;> simp

theorem Derives.ne_nil {rx : Rx} {l : Level} {e : BExpr} {ts : List Tok} (h : Derives rx l e ts) : ts ≠ [] := by
  induction h with
  | or | and | not | paren | litTrue | litFalse | var => simp
  | orAnd _ _ _ ih | andNot _ _ _ ih => exact ih
  | pattern parts _ hx _ =>
    obtain ⟨p, hp⟩ := hx
    rintro rfl
    simp at hp

theorem fuel (rx : Rx) : ∀ n : Nat,
    (∀ st : St, 4 * st.size + 4 ≤ n → orExpr rx n st = orExpr rx (n + 1) st ∧ orExpr rx n st ≠ .error .fuel) ∧
    (∀ (a : BExpr) (st : St), 4 * st.size + 1 ≤ n →
      orLoop rx n a st = orLoop rx (n + 1) a st ∧ orLoop rx n a st ≠ .error .fuel) ∧
    (∀ st : St, 4 * st.size + 3 ≤ n → andExpr rx n st = andExpr rx (n + 1) st ∧ andExpr rx n st ≠ .error .fuel) ∧
    (∀ (a : BExpr) (st : St), 4 * st.size + 1 ≤ n →
      andLoop rx n a st = andLoop rx (n + 1) a st ∧ andLoop rx n a st ≠ .error .fuel) ∧
    (∀ st : St, 4 * st.size + 2 ≤ n → notExpr rx n st = notExpr rx (n + 1) st ∧ notExpr rx n st ≠ .error .fuel) := by
  intro n
  induction n with
  | zero => refine ⟨?_, ?_, ?_, ?_, ?_⟩ <;> intros <;> omega
  | succ n ih =>
    obtain ⟨iOr, iOrL, iAnd, iAndL, iNot⟩ := ih
    have sAnd : ∀ st a st1, andExpr rx n st = .ok (a, st1) → st1.size ≤ st.size := by
      intro st a st1 h
      obtain ⟨ts, hs, _⟩ := (sound rx n).2.2.1 _ _ _ h
      have := hs.size_le
      omega
    have sNot : ∀ st a st1, notExpr rx n st = .ok (a, st1) → st1.size ≤ st.size := by
      intro st a st1 h
      obtain ⟨ts, hs, _⟩ := (sound rx n).2.2.2.2 _ _ _ h
      have := hs.size_le
      omega
    refine ⟨?_, ?_, ?_, ?_, ?_⟩
    · intro st hb
      have h1 := iAnd st (by omega)
      constructor
      · rw [orExpr, orExpr, ← h1.1]
        refine bind_congr' fun ⟨a, st1⟩ h => ?_
        have := sAnd _ _ _ h
        exact (iOrL a st1 (by omega)).1
      · rw [orExpr]
        refine bind_ne h1.2 fun ⟨a, st1⟩ h => ?_
        have := sAnd _ _ _ h
        exact (iOrL a st1 (by omega)).2
    · intro a st hb
      by_cases hc : st.cur = .or
      · have key : ∀ st1, st.next = .ok st1 → st1.size < st.size := fun st1 h1 => next_lt (by simp [hc]) h1
        constructor
        · rw [orLoop, orLoop, if_pos hc, if_pos hc]
          refine bind_congr' fun st1 h1 => ?_
          have := key _ h1
          rw [← (iAnd st1 (by omega)).1]
          refine bind_congr' fun ⟨b, st2⟩ h2 => ?_
          have := sAnd _ _ _ h2
          exact (iOrL _ st2 (by omega)).1
        · rw [orLoop, if_pos hc]
          refine bind_ne (next_ne_fuel st) fun st1 h1 => ?_
          have := key _ h1
          refine bind_ne (iAnd st1 (by omega)).2 fun ⟨b, st2⟩ h2 => ?_
          have := sAnd _ _ _ h2
          exact (iOrL _ st2 (by omega)).2
      · rw [orLoop, orLoop, if_neg hc, if_neg hc]
        simp
    · intro st hb
      have h1 := iNot st (by omega)
      constructor
      · rw [andExpr, andExpr, ← h1.1]
        refine bind_congr' fun ⟨a, st1⟩ h => ?_
        have := sNot _ _ _ h
        exact (iAndL a st1 (by omega)).1
      · rw [andExpr]
        refine bind_ne h1.2 fun ⟨a, st1⟩ h => ?_
        have := sNot _ _ _ h
        exact (iAndL a st1 (by omega)).2
    · intro a st hb
      by_cases hc : st.cur = .and
      · have key : ∀ st1, st.next = .ok st1 → st1.size < st.size := fun st1 h1 => next_lt (by simp [hc]) h1
        constructor
        · rw [andLoop, andLoop, if_pos hc, if_pos hc]
          refine bind_congr' fun st1 h1 => ?_
          have := key _ h1
          rw [← (iNot st1 (by omega)).1]
          refine bind_congr' fun ⟨b, st2⟩ h2 => ?_
          have := sNot _ _ _ h2
          exact (iAndL _ st2 (by omega)).1
        · rw [andLoop, if_pos hc]
          refine bind_ne (next_ne_fuel st) fun st1 h1 => ?_
          have := key _ h1
          refine bind_ne (iNot st1 (by omega)).2 fun ⟨b, st2⟩ h2 => ?_
          have := sNot _ _ _ h2
          exact (iAndL _ st2 (by omega)).2
      · rw [andLoop, andLoop, if_neg hc, if_neg hc]
        simp
    · intro st hb
      have key : ∀ st1, st.cur ≠ .eof → st.next = .ok st1 → st1.size < st.size := fun st1 hc h1 => next_lt hc h1
      have hcol := collect_fuel n st (by omega)
      constructor
      · rw [notExpr, notExpr]
        split
        · rename_i hc
          refine bind_congr' fun st1 h1 => ?_
          have := key _ (by simp [hc]) h1
          rw [← (iNot st1 (by omega)).1]
        · rename_i hc
          refine bind_congr' fun st1 h1 => ?_
          have := key _ (by simp [hc]) h1
          rw [← (iOr st1 (by omega)).1]
        · rw [← hcol.1]
        · rw [← hcol.1]
        · rfl
        · rfl
      · rw [notExpr]
        split
        · rename_i hc
          refine bind_ne (next_ne_fuel st) fun st1 h1 => ?_
          have := key _ (by simp [hc]) h1
          exact bind_ne (iNot st1 (by omega)).2 fun a _ => by simp [pure, Except.pure]
        · rename_i hc
          refine bind_ne (next_ne_fuel st) fun st1 h1 => ?_
          have := key _ (by simp [hc]) h1
          exact bind_ne (iOr st1 (by omega)).2 fun a _ => bind_ne (expect_ne_fuel _ _) fun b _ => by simp [pure, Except.pure]
        · exact bind_ne hcol.2 fun a _ => bind_ne (matchParts_ne_fuel _ _) fun b _ => by simp [pure, Except.pure]
        · exact bind_ne hcol.2 fun a _ => bind_ne (matchParts_ne_fuel _ _) fun b _ => by simp [pure, Except.pure]
        · simp
        · simp

theorem orExpr_fuel (rx : Rx) (st : St) (n : Nat) (hn : 4 * st.size + 4 ≤ n) :
    ∀ m, n ≤ m → orExpr rx m st = orExpr rx n st := by
  intro m hm
  obtain ⟨k, rfl⟩ := Nat.exists_eq_add_of_le hm
  clear hm
  induction k with
  | zero => rfl
  | succ k ih => rw [← Nat.add_assoc, ← ((fuel rx (n + k)).1 st (by omega)).1, ih]

/-- The bound never runs out. -/
theorem parse_fuel (rx : Rx) (s : Str) : parse rx s ≠ .error .fuel := by
  unfold parse parseFuel
  refine bind_ne (next_ne_fuel _) fun st h => ?_
  have := next_size h
  refine bind_ne ((fuel rx _).1 st (by simp only at this; omega)).2 fun ⟨e, st'⟩ _ => ?_
  exact bind_ne (expect_ne_fuel _ _) fun _ _ => by simp [pure, Except.pure]

/-- Parsing, in terms of the tokens read. -/
theorem parse_iff (rx : Rx) (s : Str) (e : BExpr) :
    parse rx s = .ok e ↔
      ∃ st ts st', St.next ⟨.eof, s⟩ = .ok st ∧ Steps st ts st' ∧ st'.cur = .eof ∧ Derives rx .or e ts := by
  constructor
  · intro h
    unfold parse parseFuel at h
    obtain ⟨st, h1, h⟩ := bind_ok'.1 h
    obtain ⟨⟨a, st'⟩, h2, h⟩ := bind_ok'.1 h
    obtain ⟨st2, h3, h⟩ := bind_ok'.1 h
    have h := pure_ok'.1 h
    subst h
    obtain ⟨ts, hs, hd⟩ := (sound rx _).1 _ _ _ h2
    refine ⟨st, ts, st', h1, hs, ?_, hd⟩
    unfold St.expect at h3
    by_contra hc
    rw [if_neg hc, if_neg hc] at h3
    cases h3
  · rintro ⟨st, ts, st', h1, hs, hc, hd⟩
    have hcomp := complete rx _ _ _ hd st st' hs
    simp only at hcomp
    obtain ⟨N, hN⟩ := hcomp (by rw [hc]; simp [Part]) 1 (e, st') (by
      rintro (_ | n) h
      · omega
      · unfold orLoop; rw [if_neg (by rw [hc]; simp)])
    have hsz := next_size h1
    simp only at hsz
    have := orExpr_fuel rx st (4 * s.length + 8) (by omega) (max N (4 * s.length + 8)) (by omega)
    rw [hN _ (by omega)] at this
    unfold parse parseFuel
    rw [h1]
    show (do let (e, st) ← orExpr rx (4 * s.length + 8) st; _) = _
    rw [← this]
    show (do let _ ← st'.expect .eof; _) = _
    have : st'.expect .eof = .ok st' := by
      unfold St.expect
      rw [if_pos hc, if_pos hc]
    rw [this]
    rfl

/-! ## Tokens and text -/

theorem identChar_iff (c : Char) : isIdent c = true ↔ IdentChar c := by
  have small : ∀ n : Fin 128, isIdent (Char.ofNat n) = true ↔ IdentChar (Char.ofNat n) := by
    unfold IdentChar
    decide +kernel
  by_cases h : c.toNat < 128
  · have := small ⟨c.toNat, h⟩
    simpa using this
  · constructor
    · intro hi
      exfalso
      unfold isIdent at hi
      simp only [Bool.or_eq_true, beq_iff_eq, Bool.and_eq_true, decide_eq_true_eq] at hi
      have big : ∀ d : Char, d.toNat < 128 → c ≠ d := by rintro d hd rfl; exact h hd
      have le : ∀ d : Char, d.toNat < 128 → ¬c ≤ d := by
        intro d hd hle
        have : c.toNat ≤ d.toNat := hle
        omega
      rcases hi with ((((((( hi | hi) | hi) | hi) | hi) | hi) | hi) | hi)
      · exact big _ (by decide) hi
      · exact big _ (by decide) hi
      · exact big _ (by decide) hi
      · exact big _ (by decide) hi
      · exact big _ (by decide) hi
      · exact le _ (by decide) hi.2
      · exact le _ (by decide) hi.2
      · exact le _ (by decide) hi.2
    · intro hi
      exfalso
      have all : ∀ d ∈ "-+=._abcdefghijklmnopqrstuvwxyzABCDEFGHIJKLMNOPQRSTUVWXYZ0123456789".toList,
          d.toNat < 128 := by decide +kernel
      exact h (all c hi)

theorem takeWhile_append_stop {α : Type} {p : α → Bool} {w r : List α} (hw : ∀ c ∈ w, p c = true)
    (hr : ∀ c r', r = c :: r' → p c = false) : (w ++ r).takeWhile p = w ∧ (w ++ r).dropWhile p = r := by
  induction w with
  | nil =>
    cases r with
    | nil => simp
    | cons c r' => simp [hr c r' rfl]
  | cons a w ih =>
    have ih := ih (fun c hc => hw c (by simp [hc]))
    simp [hw a (by simp), ih]

theorem mem_takeWhile' {α : Type} {p : α → Bool} {s : List α} {c : α} (h : c ∈ s.takeWhile p) : p c = true := by
  induction s with
  | nil => simp at h
  | cons a s ih =>
    by_cases ha : p a = true
    · rw [List.takeWhile_cons_of_pos ha] at h
      rcases List.mem_cons.1 h with rfl | h
      · exact ha
      · exact ih h
    · rw [List.takeWhile_cons_of_neg ha] at h
      simp at h

theorem dropWhile_split {α : Type} (p : α → Bool) (s : List α) :
    ∃ w, s = w ++ s.dropWhile p ∧ (∀ c ∈ w, p c = true) ∧ w = s.takeWhile p :=
  ⟨s.takeWhile p, (List.takeWhile_append_dropWhile).symm, fun _ hc => (mem_takeWhile' hc), rfl⟩

theorem dropWhile_head {α : Type} {p : α → Bool} {s r : List α} {c : α} (h : s.dropWhile p = c :: r) :
    p c = false := by
  have := List.head?_dropWhile_not p s
  rw [h] at this
  simpa using this

theorem nul_not_ident : isIdent '\x00' = false := by decide

theorem nul_not_ws : isWs '\x00' = false := by decide

/-- The lexemes a token can be read from, and where the reading stops. -/
theorem lexPattern_iff (r : Str) (t : Tok) (r' : Str) :
    lexPattern r = .ok (t, r') ↔
      ∃ w, '{' :: r = w ++ r' ∧ Lexeme true w t ∧ '\x00' ∉ w ∧ ∃ p, t = .pattern p := by
  constructor
  · intro h
    unfold lexPattern at h
    simp only at h
    by_cases hp : peek r = '{'
    · have hr := peek_tail (by decide) hp
      simp only [if_pos hp] at h
      obtain ⟨w, hw, hall, hwe⟩ := dropWhile_split (fun c => c != '}' && c != '\x00') r.tail
      split at h
      · cases h
      · rename_i c r1 hd
        rw [hd] at hw
        split at h
        · rename_i hc
          subst hc
          split at h
          · rename_i h2
            have h2 := peek_tail (by decide) h2
            split at h
            · cases h
            · rename_i hne
              cases h
              rw [← hwe] at hne ⊢
              refine ⟨['{', '{'] ++ w ++ ['}', '}'], ?_, .pattern w hne ?_, ?_, _, rfl⟩
              · rw [hr, hw, h2]; simp
              · intro hm; simpa using hall _ hm
              · intro hm
                simp only [List.mem_append, List.mem_cons, List.not_mem_nil, or_false] at hm
                rcases hm with (hm | hm) | hm
                · revert hm; decide
                · simpa using hall _ hm
                · revert hm; decide
          · split at h <;> cases h
        · cases h
    · simp only [if_neg hp] at h
      obtain ⟨w, hw, hall, hwe⟩ := dropWhile_split (fun c => c != '}' && c != '\x00') ('{' :: r)
      split at h
      · cases h
      · rename_i c r1 hd
        rw [hd] at hw
        split at h
        · rename_i hc
          subst hc
          split at h
          · rename_i h2
            have h2 := peek_tail (by decide) h2
            split at h
            · cases h
            · rename_i hne
              cases h
              rw [← hwe] at hne ⊢
              cases w with
              | nil => exact absurd rfl hne
              | cons a w =>
                have ha : a = '{' := by
                  have := congrArg List.head? hw
                  simpa using this.symm
                subst ha
                refine ⟨['{'] ++ w ++ ['}', '}'], ?_, .lone w rfl ?_ ?_, ?_, _, rfl⟩
                · rw [hw, h2]; simp
                · intro hh
                  apply hp
                  cases w with
                  | nil => simp at hh
                  | cons b w =>
                    simp only [List.head?_cons, Option.some.injEq] at hh
                    subst hh
                    simp only [List.cons_append, List.cons.injEq, true_and] at hw
                    rw [hw]
                    rfl
                · intro hm; simpa using hall _ (List.mem_cons_of_mem _ hm)
                · intro hm
                  simp only [List.mem_append, List.mem_cons, List.not_mem_nil, or_false] at hm
                  rcases hm with (hm | hm) | hm
                  · revert hm; decide
                  · simpa using hall _ (List.mem_cons_of_mem _ hm)
                  · revert hm; decide
          · split at h <;> cases h
        · cases h
  · rintro ⟨w, hw, hl, hnul, q, hq⟩
    have key : ∀ (p : Str), '}' ∉ p → '\x00' ∉ p →
        (p ++ '}' :: '}' :: r').takeWhile (fun c => c != '}' && c != '\x00') = p ∧
        (p ++ '}' :: '}' :: r').dropWhile (fun c => c != '}' && c != '\x00') = '}' :: '}' :: r' := by
      intro p h1 h2
      refine takeWhile_append_stop ?_ ?_
      · intro c hc
        simp only [Bool.and_eq_true, bne_iff_ne, ne_eq]
        exact ⟨by rintro rfl; exact h1 hc, by rintro rfl; exact h2 hc⟩
      · intro c r1 h
        cases h
        decide
    subst hq
    cases hl with
    | pattern _ hne hb =>
      have hr : r = '{' :: (q ++ '}' :: '}' :: r') := by
        simpa using hw
      have hn : '\x00' ∉ q := fun h => hnul (by simp [h])
      obtain ⟨k1, k2⟩ := key q hb hn
      unfold lexPattern
      subst hr
      simp only [peek, List.headD_cons, if_true, List.tail_cons, k1, k2, if_neg hne]
    | lone p _ hh hb =>
      have hr : r = p ++ '}' :: '}' :: r' := by
        simpa using hw
      have hn : '\x00' ∉ p := fun h => hnul (by simp [h])
      obtain ⟨k1, k2⟩ := key ('{' :: p) (by simp [hb]) (by simp [hn])
      unfold lexPattern
      have hpk : ¬peek r = '{' := by
        subst hr
        cases p with
        | nil => simp [peek]
        | cons a p => simpa [peek] using hh
      rw [List.cons_append] at k1 k2
      subst hr
      simp only [if_neg hpk, k1, k2]
      simp [peek]

theorem lexHead_iff (s : Str) (t : Tok) (r : Str) (ht : t ≠ .eof) :
    lexHead s = .ok (t, r) ↔
      ∃ w, s = w ++ r ∧ Lexeme true w t ∧ '\x00' ∉ w ∧ (∀ c r', isIdentTok t = true → r = c :: r' → ¬IdentChar c) := by
  constructor
  · intro h
    cases s with
    | nil => cases h; exact absurd rfl ht
    | cons c s =>
      rw [lexHead] at h
      by_cases h0 : c = '\x00'
      · rw [if_pos h0] at h; cases h; exact absurd rfl ht
      rw [if_neg h0] at h
      by_cases h1 : c = '('
      · rw [if_pos h1] at h; cases h; subst h1
        exact ⟨['('], rfl, .lparen, by decide, by simp [isIdentTok]⟩
      rw [if_neg h1] at h
      by_cases h2 : c = ')'
      · rw [if_pos h2] at h; cases h; subst h2
        exact ⟨[')'], rfl, .rparen, by decide, by simp [isIdentTok]⟩
      rw [if_neg h2] at h
      by_cases h3 : c = '&'
      · rw [if_pos h3] at h
        split at h
        · rename_i hp
          cases h; subst h3
          have hp := peek_tail (by decide) hp
          refine ⟨['&', '&'], ?_, .and, by decide, by simp [isIdentTok]⟩
          rw [hp]; rfl
        · split at h <;> cases h
      rw [if_neg h3] at h
      by_cases h4 : c = '|'
      · rw [if_pos h4] at h
        split at h
        · rename_i hp
          cases h; subst h4
          have hp := peek_tail (by decide) hp
          refine ⟨['|', '|'], ?_, .or, by decide, by simp [isIdentTok]⟩
          rw [hp]; rfl
        · split at h <;> cases h
      rw [if_neg h4] at h
      by_cases h5 : c = '!'
      · rw [if_pos h5] at h; cases h; subst h5
        exact ⟨['!'], rfl, .not, by decide, by simp [isIdentTok]⟩
      rw [if_neg h5] at h
      by_cases h6 : isIdent c
      · rw [if_pos h6] at h
        cases h
        refine ⟨(c :: s).takeWhile isIdent, (List.takeWhile_append_dropWhile).symm, .ident _ ?_ ?_, ?_, ?_⟩
        · simp [h6]
        · intro a ha
          exact (identChar_iff a).1 (mem_takeWhile' ha)
        · intro ha
          have := mem_takeWhile' ha
          rw [nul_not_ident] at this
          cases this
        · intro a r' _ hr
          have := dropWhile_head hr
          rw [← identChar_iff, this]
          simp
      rw [if_neg h6] at h
      by_cases h7 : c = '{'
      · rw [if_pos h7] at h
        subst h7
        obtain ⟨w, a, b, d, p, e⟩ := (lexPattern_iff _ _ _).1 h
        subst e
        exact ⟨w, a, b, d, by simp [isIdentTok]⟩
      rw [if_neg h7] at h
      cases h
  · rintro ⟨w, rfl, hl, hn, hb⟩
    cases hl with
    | lparen => rfl
    | rparen => rfl
    | and => rfl
    | or => rfl
    | not => rfl
    | ident _ hne hall =>
      obtain ⟨k1, k2⟩ := takeWhile_append_stop (p := isIdent) (w := w) (r := r)
        (fun c hc => (identChar_iff c).2 (hall c hc))
        (by
          intro c r' hr
          have := hb c r' rfl hr
          rw [← identChar_iff] at this
          simpa using this)
      cases w with
      | nil => exact absurd rfl hne
      | cons c w =>
        have hc : isIdent c = true := (identChar_iff c).2 (hall c (by simp))
        have ne : ∀ d, isIdent d = false → ¬c = d := by
          rintro d hd rfl; rw [hc] at hd; cases hd
        rw [List.cons_append, lexHead, ← List.cons_append, k1, k2, if_neg (ne _ (by decide)), if_neg (ne _ (by decide)), if_neg (ne _ (by decide)),
          if_neg (ne _ (by decide)), if_neg (ne _ (by decide)), if_neg (ne _ (by decide)), if_pos hc]
    | pattern p hne hb' =>
      show lexHead ('{' :: _) = _
      rw [lexHead, if_neg (by decide), if_neg (by decide), if_neg (by decide), if_neg (by decide), if_neg (by decide),
        if_neg (by decide), if_neg (by decide), if_pos rfl]
      exact (lexPattern_iff _ _ _).2 ⟨_, rfl, .pattern p hne hb', hn, _, rfl⟩
    | lone p hl' hh hb' =>
      show lexHead ('{' :: _) = _
      rw [lexHead, if_neg (by decide), if_neg (by decide), if_neg (by decide), if_neg (by decide), if_neg (by decide),
        if_neg (by decide), if_neg (by decide), if_pos rfl]
      exact (lexPattern_iff _ _ _).2 ⟨_, rfl, .lone p hl' hh hb', hn, _, rfl⟩

theorem lexHead_eof (s r : Str) : lexHead s = .ok (.eof, r) ↔ r = s ∧ (s = [] ∨ s.head? = some '\x00') := by
  constructor
  · intro h
    cases s with
    | nil => cases h; simp
    | cons c s =>
      rw [lexHead] at h
      by_cases h0 : c = '\x00'
      · rw [if_pos h0] at h; cases h; simp [h0]
      exfalso
      rw [if_neg h0] at h
      by_cases h1 : c = '('
      · rw [if_pos h1] at h; cases h
      rw [if_neg h1] at h
      by_cases h2 : c = ')'
      · rw [if_pos h2] at h; cases h
      rw [if_neg h2] at h
      by_cases h3 : c = '&'
      · rw [if_pos h3] at h
        split at h
        · cases h
        · split at h <;> cases h
      rw [if_neg h3] at h
      by_cases h4 : c = '|'
      · rw [if_pos h4] at h
        split at h
        · cases h
        · split at h <;> cases h
      rw [if_neg h4] at h
      by_cases h5 : c = '!'
      · rw [if_pos h5] at h; cases h
      rw [if_neg h5] at h
      by_cases h6 : isIdent c
      · rw [if_pos h6] at h; cases h
      rw [if_neg h6] at h
      by_cases h7 : c = '{'
      · rw [if_pos h7] at h
        obtain ⟨_, _, _, _, p, e⟩ := (lexPattern_iff _ _ _).1 h
        cases e
      rw [if_neg h7] at h
      cases h
  · rintro ⟨rfl, h | h⟩
    · subst h; rfl
    · cases r with
      | nil => simp at h
      | cons c s =>
        simp only [List.head?_cons, Option.some.injEq] at h
        subst h
        rfl

/-- The part of the text the parser looks at: up to a NUL. -/
def visible (s : Str) : Str := s.takeWhile (· != '\x00')

theorem visible_append {w r : Str} (h : '\x00' ∉ w) : visible (w ++ r) = w ++ visible r := by
  unfold visible
  rw [List.takeWhile_append_of_pos]
  intro c hc
  simp only [bne_iff_ne, ne_eq]
  rintro rfl
  exact h hc

theorem visible_split (s : Str) : ∃ z, s = visible s ++ z ∧ visible z = [] := by
  refine ⟨s.dropWhile (· != '\x00'), (List.takeWhile_append_dropWhile).symm, ?_⟩
  cases h : s.dropWhile (· != '\x00') with
  | nil => rfl
  | cons c r =>
    have := dropWhile_head h
    unfold visible
    rw [List.takeWhile_cons_of_neg (by simp [this])]

theorem nul_not_visible (s : Str) : '\x00' ∉ visible s := by
  intro h
  have := mem_takeWhile' h
  simp at this

theorem visible_nil {s : Str} : visible s = [] ↔ s = [] ∨ s.head? = some '\x00' := by
  cases s with
  | nil => simp [visible]
  | cons c s =>
    by_cases h : c = '\x00'
    · simp [visible, h]
    · simp [visible, h]

theorem steps_text (ts : List Tok) : ∀ s : Str,
    (∃ st st', St.next ⟨.eof, s⟩ = .ok st ∧ Steps st ts st' ∧ st'.cur = .eof) ↔ Text true (visible s) ts := by
  have hnext : ∀ (c : Tok) (s : Str) (st : St), St.next ⟨c, s⟩ = .ok st ↔ lexHead (s.dropWhile isWs) = .ok (st.cur, st.rest) := by
    intro c s st
    unfold St.next lex
    simp only
    cases h : lexHead (s.dropWhile isWs) with
    | error e => simp
    | ok p => cases p; cases st; simp
  have hws : ∀ s : Str, ∃ ws, s = ws ++ s.dropWhile isWs ∧ (∀ c ∈ ws, isWs c = true) ∧ '\x00' ∉ ws := by
    intro s
    obtain ⟨ws, h1, h2, _⟩ := dropWhile_split isWs s
    refine ⟨ws, h1, h2, ?_⟩
    intro h
    have := h2 _ h
    rw [nul_not_ws] at this
    cases this
  have hdrop : ∀ (ws w r : Str) (t : Tok), (∀ c ∈ ws, isWs c = true) → Lexeme true w t →
      (ws ++ w ++ r).dropWhile isWs = w ++ r := by
    intro ws w r t h1 h2
    rw [List.append_assoc]
    refine (takeWhile_append_stop h1 ?_).2
    intro c r' hc
    have idws : ∀ c, isIdent c = true → isWs c = false := by
      intro c hc
      have := (identChar_iff c).1 hc
      have all : ∀ d ∈ "-+=._abcdefghijklmnopqrstuvwxyzABCDEFGHIJKLMNOPQRSTUVWXYZ0123456789".toList,
          isWs d = false := by decide +kernel
      exact all c this
    cases h2 with
    | lparen => cases hc; decide
    | rparen => cases hc; decide
    | and => cases hc; decide
    | or => cases hc; decide
    | not => cases hc; decide
    | ident _ hne hall =>
      cases w with
      | nil => exact absurd rfl hne
      | cons a w =>
        cases hc
        exact idws _ ((identChar_iff _).2 (hall _ (by simp)))
    | pattern => cases hc; decide
    | lone => cases hc; decide
  induction ts with
  | nil =>
    intro s
    constructor
    · rintro ⟨st, st', h1, h2, h3⟩
      have := h2.nil_inv
      subst this
      rw [hnext, h3, lexHead_eof] at h1
      obtain ⟨ws, e, hw, hn⟩ := hws s
      rw [e, visible_append hn, visible_nil.2 h1.2, List.append_nil]
      exact .done _ hw
    · intro h
      generalize hv : visible s = v at h
      cases h with
      | done _ hw =>
        obtain ⟨z, hz, hz0⟩ := visible_split s
        refine ⟨⟨.eof, s.dropWhile isWs⟩, _, ?_, .nil _, rfl⟩
        rw [hnext]
        refine (lexHead_eof _ _).2 ⟨rfl, ?_⟩
        rw [hv] at hz
        have : s.dropWhile isWs = z := by
          rw [hz]
          refine (takeWhile_append_stop hw ?_).2
          intro c r hc
          rcases visible_nil.1 hz0 with h | h
          · rw [h] at hc; cases hc
          · rw [hc] at h
            simp only [List.head?_cons, Option.some.injEq] at h
            subst h
            exact nul_not_ws
        rw [this]
        exact visible_nil.1 hz0
  | cons t ts ih =>
    intro s
    constructor
    · rintro ⟨st, st', h1, h2, h3⟩
      obtain ⟨hc, hne, st1, hn, hs⟩ := h2.inv
      rw [hnext, hc, lexHead_iff _ _ _ hne] at h1
      obtain ⟨w, e, hl, hnul, hb⟩ := h1
      obtain ⟨ws, e', hw, hn'⟩ := hws s
      rw [e', e, visible_append hn', visible_append hnul, ← List.append_assoc]
      refine .token ws w (visible st.rest) t ts hw hl ?_ ((ih st.rest).1 ⟨st1, st', ?_, hs, h3⟩)
      · intro s' c r' hti hvr
        obtain ⟨z, hz, _⟩ := visible_split st.rest
        rw [hvr] at hz
        exact hb c (r' ++ z) (by rw [hti]; rfl) hz
      · rw [hnext]
        cases st
        rw [hnext] at hn
        exact hn
    · intro h
      generalize hv : visible s = v at h
      cases h with
      | token ws w r _ _ hw hl hb ht =>
        obtain ⟨z, hz, hz0⟩ := visible_split s
        have hnv := nul_not_visible s
        rw [hv] at hz hnv
        have hvr : visible (r ++ z) = r := by
          rw [visible_append (by intro h; exact hnv (by simp [h])), hz0, List.append_nil]
        have hd : s.dropWhile isWs = w ++ (r ++ z) := by
          rw [hz, List.append_assoc (ws ++ w)]
          exact hdrop ws w _ t hw hl
        have hne : t ≠ .eof := by
          rintro rfl; cases hl
        have h1 : lexHead (s.dropWhile isWs) = .ok (t, r ++ z) := by
          rw [hd]
          refine (lexHead_iff _ _ _ hne).2 ⟨w, rfl, hl, fun h => hnv (by simp [h]), ?_⟩
          intro c r' hti hrc
          cases t <;> simp only [isIdentTok, Bool.false_eq_true] at hti
          cases r with
          | nil =>
            simp only [List.nil_append] at hrc
            rcases visible_nil.1 hz0 with h | h
            · rw [h] at hrc; cases hrc
            · rw [hrc] at h
              simp only [List.head?_cons, Option.some.injEq] at h
              subst h
              rw [← identChar_iff, nul_not_ident]
              simp
          | cons a r =>
            simp only [List.cons_append, List.cons.injEq] at hrc
            exact hb _ c r rfl (by rw [hrc.1])
        have := (ih (r ++ z)).2 (by rw [hvr]; exact ht)
        obtain ⟨st1, st', hn, hs, he⟩ := this
        refine ⟨⟨t, r ++ z⟩, st', ?_, ?_, he⟩
        · rw [hnext]; exact h1
        · refine Steps.cons ⟨t, r ++ z⟩ st1 st' ts hne ?_ hs
          rw [hnext] at hn ⊢
          exact hn

end Litcheck.BParse
