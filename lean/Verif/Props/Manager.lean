import Verif.Model.Manager
import Verif.Proofs.Tac
import Mathlib.Data.List.Nodup

/-!
# Loaded files, symbols and definitions: C29, C30, C31
-/

namespace Litcheck

/-! ## C29 -/

/-- What can be done to a source manager. -/
inductive MOp where
  | load (group : SourceGroup) (uri : FileName) (text : Buf)
  | update (id : Nat) (text : Buf) (sel : Option Selection) (version : Int)

namespace Manager

/-- The manager after one operation; a refused update leaves it alone. -/
def step (m : Manager) : MOp → P Manager
  | .load g u t => do
    let r ← m.load g u t
    .ok r.1
  | .update id t sel v => do
    match ← m.update id t sel v with
    | some (.ok m') => .ok m'
    | _ => .ok m

/-- The manager after the operations. -/
def run (m : Manager) : List MOp → P Manager
  | [] => .ok m
  | o :: os => do
    let m' ← m.step o
    m'.run os

/-- Ids agree with places, names with files. -/
structure WF (m : Manager) : Prop where
  file : ∀ (i : Nat) (f : SFile), m.files[i]? = some f → f.id = i ∧ i ≤ SourceId.MAX_INDEX
  arg : ∀ (i : Nat) (f : SFile), m.arguments[i]? = some f → f.id = i + 254 * 2 ^ 24 ∧ i ≤ SourceId.MAX_INDEX
  uri : ∀ (u : String) (id : Nat), m.uris u = some id → ∃ f, m.get id = some f ∧ f.uri.asStr = u ∧ f.id = id

theorem get_file {m : Manager} {i : Nat} (h : i ≤ SourceId.MAX_INDEX) : m.get i = m.files[i]? := by
  unfold SourceId.MAX_INDEX at h
  have h1 : i / 2 ^ 24 = 0 := by omega
  have h2 : i % 2 ^ 24 = i := by omega
  simp [get, SourceId.isCliArgument, SourceId.group, SourceId.toIndex, h1, h2]

theorem get_arg {m : Manager} {i : Nat} (h : i ≤ SourceId.MAX_INDEX) :
    m.get (i + 254 * 2 ^ 24) = m.arguments[i]? := by
  unfold SourceId.MAX_INDEX at h
  have h1 : (i + 254 * 2 ^ 24) / 2 ^ 24 = 254 := by omega
  have h2 : (i + 254 * 2 ^ 24) % 2 ^ 24 = i := by omega
  unfold get SourceId.isCliArgument SourceId.group SourceId.toIndex
  rw [h1, h2]
  simp

/-- A file which is filed under its own id is where its id says. -/
theorem WF.place {m : Manager} (hw : m.WF) {f : SFile} (h : m.get f.id = some f) :
    (f.id ≤ SourceId.MAX_INDEX ∧ m.files[f.id]? = some f) ∨
    (∃ i, i ≤ SourceId.MAX_INDEX ∧ f.id = i + 254 * 2 ^ 24 ∧ m.arguments[i]? = some f) := by
  unfold get at h
  split at h
  · obtain ⟨h1, h2⟩ := hw.arg _ _ h
    exact .inr ⟨_, h2, h1, h⟩
  · obtain ⟨h1, h2⟩ := hw.file _ _ h
    rw [← h1] at h h2
    exact .inl ⟨h2, h⟩

theorem getElem?_snoc {α} {l : List α} {x y : α} {i : Nat} :
    (l ++ [x])[i]? = some y ↔ l[i]? = some y ∨ i = l.length ∧ x = y := by
  rw [List.getElem?_append]
  split
  · constructor
    · exact .inl
    · rintro (h | ⟨h, _⟩)
      · exact h
      · omega
  · rename_i hlt
    have : l[i]? = none := List.getElem?_eq_none (by omega)
    rw [this]
    by_cases h : i = l.length
    · subst h; simp
    · have : [x][i - l.length]? = none := List.getElem?_eq_none (by simp; omega)
      simp [this, h]

theorem getElem?_keep {α} {l : List α} {x y : α} {i : Nat} (h : l[i]? = some y) : (l ++ [x])[i]? = some y :=
  getElem?_snoc.2 (.inl h)

/-- What an insertion does. -/
theorem insert_cases {m m' : Manager} {g : SourceGroup} {u : FileName} {c : Source} {f : SFile}
    (h : m.insert g u c = .ok (m', f)) :
    (m' = m ∧ (∃ id, m.uris u.asStr = some id ∧ m.get id = some f) ∧ f.src.content = c.content) ∨
    ((∀ id f', m.uris u.asStr = some id → m.get id = some f' → f'.src.content ≠ c.content) ∧ g = .file ∧
      m.files.length ≤ SourceId.MAX_INDEX ∧ f = ⟨m.files.length, u, c⟩ ∧
      m' = ⟨m.files ++ [f], m.arguments, m.uris.insert u.asStr m.files.length⟩) ∨
    ((∀ id f', m.uris u.asStr = some id → m.get id = some f' → f'.src.content ≠ c.content) ∧ g = .argument ∧
      m.arguments.length ≤ SourceId.MAX_INDEX ∧ f = ⟨m.arguments.length + 254 * 2 ^ 24, u, c⟩ ∧
      m' = ⟨m.files, m.arguments ++ [f], m.uris.insert u.asStr (m.arguments.length + 254 * 2 ^ 24)⟩) := by
  unfold insert at h
  cases hk : m.known u c with
  | error e => rw [hk] at h; exact absurd h (by simp [bind, Except.bind])
  | ok r =>
    rw [hk] at h
    simp only [bind, Except.bind] at h
    have hr : (∀ f', r = some f' → (∃ id, m.uris u.asStr = some id ∧ m.get id = some f') ∧ f'.src.content = c.content) ∧
        (r = none → ∀ id f', m.uris u.asStr = some id → m.get id = some f' → f'.src.content ≠ c.content) := by
      unfold known at hk
      cases hu : m.uris u.asStr with
      | none =>
        rw [hu] at hk
        have := (Except.ok.inj hk).symm
        subst this
        exact ⟨fun f' h => absurd h (by simp), fun _ id f' h => absurd h (by simp)⟩
      | some id =>
        rw [hu] at hk
        dsimp only at hk
        cases hg : m.get id with
        | none => rw [hg] at hk; exact absurd hk (by simp)
        | some f0 =>
          rw [hg] at hk
          have := (Except.ok.inj hk).symm
          subst this
          constructor
          · intro f' hf'
            split at hf'
            · rename_i hc
              have := Option.some.inj hf'
              subst this
              exact ⟨⟨id, rfl, hg⟩, by simpa using hc⟩
            · exact absurd hf' (by simp)
          · intro hn id' f' h1 h2
            have := Option.some.inj h1
            subst this
            rw [hg] at h2
            have := Option.some.inj h2
            subst this
            split at hn
            · exact absurd hn (by simp)
            · rename_i hc
              simpa using hc
    cases r with
    | some f0 =>
      dsimp only at h
      have := Except.ok.inj h
      simp only [Prod.mk.injEq] at this
      obtain ⟨rfl, rfl⟩ := this
      exact .inl ⟨rfl, hr.1 _ rfl⟩
    | none =>
      dsimp only at h
      cases g with
      | unknown => exact absurd h (by simp)
      | file =>
        by_cases hle : m.files.length ≤ SourceId.MAX_INDEX
        · simp only [SourceId.file, if_pos hle] at h
          have := Except.ok.inj h
          simp only [Prod.mk.injEq] at this
          obtain ⟨rfl, rfl⟩ := this
          exact .inr (.inl ⟨hr.2 rfl, rfl, hle, rfl, rfl⟩)
        · simp only [SourceId.file, if_neg hle] at h
          exact absurd h (by simp)
      | argument =>
        by_cases hle : m.arguments.length ≤ SourceId.MAX_INDEX
        · simp only [SourceId.argument, if_pos hle] at h
          have := Except.ok.inj h
          simp only [Prod.mk.injEq] at this
          obtain ⟨rfl, rfl⟩ := this
          exact .inr (.inr ⟨hr.2 rfl, rfl, hle, rfl, rfl⟩)
        · simp only [SourceId.argument, if_neg hle] at h
          exact absurd h (by simp)

theorem load_cases {m m' : Manager} {g : SourceGroup} {u : FileName} {t : Buf} {f : SFile}
    (h : m.load g u t = .ok (m', f)) : ∃ c : Source, Source.new t = .ok c ∧ c.content = t ∧ m.insert g u c = .ok (m', f) := by
  unfold load Source.new at h
  split at h
  · exact ⟨⟨t, computeLineStarts t none, 0⟩, by unfold Source.new; rw [if_pos (by assumption)], rfl, h⟩
  · exact absurd h (by simp [bind, Except.bind])

/-- Insertion keeps every file where it was. -/
theorem insert_get {m m' : Manager} {g : SourceGroup} {u : FileName} {c : Source} {f : SFile}
    (h : m.insert g u c = .ok (m', f)) {id : Nat} {f' : SFile} (hg : m.get id = some f') : m'.get id = some f' := by
  rcases insert_cases h with ⟨rfl, _⟩ | ⟨_, _, _, _, rfl⟩ | ⟨_, _, _, _, rfl⟩
  · exact hg
  · unfold get at hg ⊢
    split
    · rename_i hh; rw [if_pos hh] at hg; exact hg
    · rename_i hh; rw [if_neg hh] at hg; exact getElem?_keep hg
  · unfold get at hg ⊢
    split
    · rename_i hh; rw [if_pos hh] at hg; exact getElem?_keep hg
    · rename_i hh; rw [if_neg hh] at hg; exact hg

theorem insert_wf {m m' : Manager} {g : SourceGroup} {u : FileName} {c : Source} {f : SFile} (hw : m.WF)
    (h : m.insert g u c = .ok (m', f)) : m'.WF ∧ m'.get f.id = some f ∧ f.uri.asStr = u.asStr ∧ m'.uris u.asStr = some f.id := by
  have hkeep := @insert_get m m' g u c f h
  rcases insert_cases h with ⟨rfl, ⟨id, h1, h2⟩, _⟩ | ⟨_, _, hle, hf, hm⟩ | ⟨_, _, hle, hf, hm⟩
  · obtain ⟨f', h3, h4, h5⟩ := hw.uri u.asStr id h1
    rw [h2] at h3
    have := Option.some.inj h3
    subst this
    subst h5
    exact ⟨hw, h2, h4, h1⟩
  · have hid : f.id = m.files.length := by rw [hf]
    have hgf : m'.get f.id = some f := by
      rw [hid, get_file hle, hm]
      exact getElem?_snoc.2 (.inr ⟨rfl, rfl⟩)
    refine ⟨⟨?_, ?_, ?_⟩, hgf, by rw [hf], ?_⟩
    · intro i f' hi
      rw [hm] at hi
      rcases getElem?_snoc.1 hi with h1 | ⟨h1, h2⟩
      · exact hw.file i f' h1
      · subst h2; exact ⟨by omega, by omega⟩
    · intro i f' hi
      rw [hm] at hi
      exact hw.arg i f' hi
    · intro u' id' hu
      rw [hm] at hu
      dsimp only [Map.insert] at hu
      split at hu
      · rename_i he
        have := Option.some.inj hu
        subst this
        rw [← hid]
        exact ⟨f, hgf, by rw [he, hf], rfl⟩
      · obtain ⟨f', h3, h4, h5⟩ := hw.uri u' id' hu
        exact ⟨f', hkeep h3, h4, h5⟩
    · rw [hm, hid]
      simp [Map.insert]
  · have hid : f.id = m.arguments.length + 254 * 2 ^ 24 := by rw [hf]
    have hgf : m'.get f.id = some f := by
      rw [hid, get_arg hle, hm]
      exact getElem?_snoc.2 (.inr ⟨rfl, rfl⟩)
    refine ⟨⟨?_, ?_, ?_⟩, hgf, by rw [hf], ?_⟩
    · intro i f' hi
      rw [hm] at hi
      exact hw.file i f' hi
    · intro i f' hi
      rw [hm] at hi
      rcases getElem?_snoc.1 hi with h1 | ⟨h1, h2⟩
      · exact hw.arg i f' h1
      · subst h2; exact ⟨by omega, by omega⟩
    · intro u' id' hu
      rw [hm] at hu
      dsimp only [Map.insert] at hu
      split at hu
      · rename_i he
        have := Option.some.inj hu
        subst this
        rw [← hid]
        exact ⟨f, hgf, by rw [he, hf], rfl⟩
      · obtain ⟨f', h3, h4, h5⟩ := hw.uri u' id' hu
        exact ⟨f', hkeep h3, h4, h5⟩
    · rw [hm, hid]
      simp [Map.insert]

/-- What an accepted update does. -/
theorem update_cases {m m' : Manager} {id : Nat} {t : Buf} {sel : Option Selection} {v : Int}
    (h : m.update id t sel v = .ok (some (.ok m'))) :
    (∃ f src, id / 2 ^ 24 = 0 ∧ m.files[(SourceId.toIndex id)]? = some f ∧ f.src.update t sel v = .ok (.ok src) ∧
      m' = { m with files := m.files.set (SourceId.toIndex id) { f with src := src } }) ∨
    (∃ f src, id / 2 ^ 24 = 254 ∧ m.arguments[(SourceId.toIndex id)]? = some f ∧ f.src.update t sel v = .ok (.ok src) ∧
      m' = { m with arguments := m.arguments.set (SourceId.toIndex id) { f with src := src } }) := by
  have hedit : ∀ (fs fs' : List SFile) (i : Nat), editAt fs i t sel v = .ok (.ok fs') →
      ∃ f src, fs[i]? = some f ∧ f.src.update t sel v = .ok (.ok src) ∧ fs' = fs.set i { f with src := src } := by
    intro fs fs' i he
    unfold editAt at he
    cases hf : fs[i]? with
    | none => rw [hf] at he; exact absurd he (by simp)
    | some f =>
      rw [hf] at he
      dsimp only at he
      cases hu : f.src.update t sel v with
      | error e => rw [hu] at he; exact absurd he (by simp [bind, Except.bind])
      | ok r =>
        rw [hu] at he
        cases r with
        | error e => exact absurd he (by simp [bind, Except.bind])
        | ok src =>
          simp only [bind, Except.bind, Except.ok.injEq] at he
          exact ⟨f, src, rfl, hu, he.symm⟩
  unfold update SourceId.group at h
  by_cases h0 : id / 2 ^ 24 = 0
  · rw [if_pos h0] at h
    dsimp only at h
    cases he : editAt m.files (SourceId.toIndex id) t sel v with
    | error e => rw [he] at h; exact absurd h (by simp [bind, Except.bind])
    | ok r =>
      rw [he] at h
      cases r with
      | error e => exact absurd h (by simp [bind, Except.bind])
      | ok fs =>
        simp only [bind, Except.bind, Except.ok.injEq, Option.some.injEq] at h
        obtain ⟨f, src, h1, h2, h3⟩ := hedit _ _ _ he
        exact .inl ⟨f, src, h0, h1, h2, by rw [← h, h3]⟩
  · rw [if_neg h0] at h
    by_cases h1 : id / 2 ^ 24 = 254
    · rw [if_pos h1] at h
      dsimp only at h
      cases he : editAt m.arguments (SourceId.toIndex id) t sel v with
      | error e => rw [he] at h; exact absurd h (by simp [bind, Except.bind])
      | ok r =>
        rw [he] at h
        cases r with
        | error e => exact absurd h (by simp [bind, Except.bind])
        | ok fs =>
          simp only [bind, Except.bind, Except.ok.injEq, Option.some.injEq] at h
          obtain ⟨f, src, h2, h3, h4⟩ := hedit _ _ _ he
          exact .inr ⟨f, src, h1, h2, h3, by rw [← h, h4]⟩
    · rw [if_neg h1] at h
      exact absurd h (by simp)

theorem getElem?_set_some {α} {l : List α} {i j : Nat} {x y z : α} (hi : l[i]? = some z)
    (h : (l.set i x)[j]? = some y) : (j = i ∧ y = x) ∨ (j ≠ i ∧ l[j]? = some y) := by
  rw [List.getElem?_set] at h
  split at h
  · rename_i he
    split at h
    · exact .inl ⟨he.symm, (Option.some.inj h).symm⟩
    · exact absurd h (by simp)
  · rename_i he
    exact .inr ⟨fun e => he e.symm, h⟩

/-- Every file is still there after an update, with its id and its name. -/
theorem set_get {m m' : Manager} {id : Nat} {t : Buf} {sel : Option Selection} {v : Int} (hw : m.WF)
    (h : m.update id t sel v = .ok (some (.ok m'))) {id' : Nat} {f' : SFile} (hg : m.get id' = some f') :
    ∃ f'', m'.get id' = some f'' ∧ f''.uri = f'.uri ∧ f''.id = f'.id ∧ (f'.id ≠ id → f'' = f') := by
  have hset : ∀ (l : List SFile) (i j : Nat) (f : SFile) (src : Source), l[i]? = some f → l[j]? = some f' →
      f.id = id → ∃ f'', (l.set i { f with src := src })[j]? = some f'' ∧ f''.uri = f'.uri ∧ f''.id = f'.id ∧
        (f'.id ≠ id → f'' = f') := by
    intro l i j f src h1 h2 h3
    by_cases hij : i = j
    · subst hij
      rw [h1] at h2
      have := Option.some.inj h2
      subst this
      have hlt : i < l.length := by
        by_contra hn
        rw [List.getElem?_eq_none (by omega)] at h1
        exact absurd h1 (by simp)
      exact ⟨{ f with src := src }, by rw [List.getElem?_set_self hlt], rfl, rfl, fun hh => absurd h3 hh⟩
    · exact ⟨f', by rw [List.getElem?_set_ne hij]; exact h2, rfl, rfl, fun _ => rfl⟩
  rcases update_cases h with ⟨f, src, h0, h1, h2, rfl⟩ | ⟨f, src, h0, h1, h2, rfl⟩
  · have hfid : f.id = id := by
      rw [(hw.file _ _ h1).1]
      unfold SourceId.toIndex
      omega
    unfold get at hg ⊢
    split
    · rename_i hh; rw [if_pos hh] at hg; exact ⟨f', hg, rfl, rfl, fun _ => rfl⟩
    · rename_i hh; rw [if_neg hh] at hg; exact hset _ _ _ _ _ h1 hg hfid
  · have hfid : f.id = id := by
      rw [(hw.arg _ _ h1).1]
      unfold SourceId.toIndex
      omega
    unfold get at hg ⊢
    split
    · rename_i hh; rw [if_pos hh] at hg; exact hset _ _ _ _ _ h1 hg hfid
    · rename_i hh; rw [if_neg hh] at hg; exact ⟨f', hg, rfl, rfl, fun _ => rfl⟩

theorem update_wf {m m' : Manager} {id : Nat} {t : Buf} {sel : Option Selection} {v : Int} (hw : m.WF)
    (h : m.update id t sel v = .ok (some (.ok m'))) : m'.WF := by
  have hsg := @set_get m m' id t sel v hw h
  have huri : m'.uris = m.uris := by
    rcases update_cases h with ⟨f, src, h0, h1, h2, rfl⟩ | ⟨f, src, h0, h1, h2, rfl⟩ <;> rfl
  refine ⟨?_, ?_, ?_⟩
  · intro i f' hi
    rcases update_cases h with ⟨f, src, h0, h1, h2, rfl⟩ | ⟨f, src, h0, h1, h2, rfl⟩
    · rcases getElem?_set_some h1 hi with ⟨rfl, rfl⟩ | ⟨_, h3⟩
      · exact ⟨(hw.file _ _ h1).1, (hw.file _ _ h1).2⟩
      · exact hw.file _ _ h3
    · exact hw.file i f' hi
  · intro i f' hi
    rcases update_cases h with ⟨f, src, h0, h1, h2, rfl⟩ | ⟨f, src, h0, h1, h2, rfl⟩
    · exact hw.arg i f' hi
    · rcases getElem?_set_some h1 hi with ⟨rfl, rfl⟩ | ⟨_, h3⟩
      · exact ⟨(hw.arg _ _ h1).1, (hw.arg _ _ h1).2⟩
      · exact hw.arg _ _ h3
  · intro u id' hu
    rw [huri] at hu
    obtain ⟨f', h1, h2, h3⟩ := hw.uri u id' hu
    obtain ⟨f'', h4, h5, h6, -⟩ := hsg h1
    exact ⟨f'', h4, by rw [h5, h2], by rw [h6, h3]⟩

theorem empty_wf : empty.WF :=
  ⟨fun i f h => by simp [empty] at h, fun i f h => by simp [empty] at h, fun u id h => by simp [empty] at h⟩

theorem step_wf {m m' : Manager} {o : MOp} (hw : m.WF) (h : m.step o = .ok m') : m'.WF := by
  cases o with
  | load g u t =>
    simp only [step] at h
    cases hl : m.load g u t with
    | error e => rw [hl] at h; exact absurd h (by simp [bind, Except.bind])
    | ok r =>
      obtain ⟨m1, f⟩ := r
      rw [hl] at h
      have := Except.ok.inj h
      subst this
      obtain ⟨c, -, -, hi⟩ := load_cases hl
      exact (insert_wf hw hi).1
  | update id t sel v =>
    simp only [step] at h
    cases hu : m.update id t sel v with
    | error e => rw [hu] at h; exact absurd h (by simp [bind, Except.bind])
    | ok r =>
      rw [hu] at h
      match r, hu, h with
      | some (.ok m1), hu, h =>
        have := Except.ok.inj h
        subst this
        exact update_wf hw hu
      | some (.error e), hu, h =>
        have := Except.ok.inj h
        subst this
        exact hw
      | none, hu, h =>
        have := Except.ok.inj h
        subst this
        exact hw

theorem run_cons {m m' : Manager} {o : MOp} {os : List MOp} (h : m.run (o :: os) = .ok m') :
    ∃ m1, m.step o = .ok m1 ∧ m1.run os = .ok m' := by
  unfold run at h
  cases hs : m.step o with
  | error e => rw [hs] at h; exact absurd h (by simp [bind, Except.bind])
  | ok m1 => rw [hs] at h; exact ⟨m1, rfl, h⟩

theorem run_wf : ∀ {os : List MOp} {m m' : Manager}, m.WF → m.run os = .ok m' → m'.WF := by
  intro os
  induction os with
  | nil => intro m m' hw h; have := Except.ok.inj h; subst this; exact hw
  | cons o os ih =>
    intro m m' hw h
    obtain ⟨m1, h1, h2⟩ := run_cons h
    exact ih (step_wf hw h1) h2

/-- A manager a program can have. -/
def Reachable (m : Manager) : Prop := ∃ os, empty.run os = .ok m

theorem Reachable.wf {m : Manager} (h : m.Reachable) : m.WF := run_wf empty_wf h.choose_spec

end Manager

open Manager

/-- **C29**: a file stays what it is, whatever is loaded and whichever other file is edited. -/
theorem C29_stable {os : List MOp} : ∀ {m m' : Manager} {f : SFile}, m.WF → m.get f.id = some f →
    (∀ t sel v, MOp.update f.id t sel v ∉ os) → m.run os = .ok m' → m'.get f.id = some f := by
  induction os with
  | nil => intro m m' f _ hg _ h; have := Except.ok.inj h; subst this; exact hg
  | cons o os ih =>
    intro m m' f hw hg hno h
    obtain ⟨m1, h1, h2⟩ := run_cons h
    refine ih (step_wf hw h1) ?_ (fun t sel v hm => hno t sel v (List.mem_cons_of_mem _ hm)) h2
    cases o with
    | load g u t =>
      simp only [step] at h1
      cases hl : m.load g u t with
      | error e => rw [hl] at h1; exact absurd h1 (by simp [bind, Except.bind])
      | ok r =>
        obtain ⟨m2, f2⟩ := r
        rw [hl] at h1
        have := Except.ok.inj h1
        subst this
        obtain ⟨c, -, -, hi⟩ := load_cases hl
        exact insert_get hi hg
    | update id t sel v =>
      simp only [step] at h1
      cases hu : m.update id t sel v with
      | error e => rw [hu] at h1; exact absurd h1 (by simp [bind, Except.bind])
      | ok r =>
        rw [hu] at h1
        match r, hu, h1 with
        | some (.ok m2), hu, h1 =>
          have := Except.ok.inj h1
          subst this
          obtain ⟨f'', h3, -, -, h4⟩ := set_get hw hu hg
          have hne : f.id ≠ id := by
            intro he
            rw [← he] at hno
            exact hno t sel v (by simp)
          rw [h4 hne] at h3
          exact h3
        | some (.error e), hu, h1 =>
          have := Except.ok.inj h1
          subst this
          exact hg
        | none, hu, h1 =>
          have := Except.ok.inj h1
          subst this
          exact hg

/-- **C29**: what loading gives: a file with a name of that text and that content, which its id and its name lead to. Either
nothing changed, or the id was unused, and then the name is the one given. The names with other texts lead where they did. -/
theorem C29_loaded {m m' : Manager} {g : SourceGroup} {u : FileName} {t : Buf} {f : SFile} (hw : m.WF)
    (h : m.load g u t = .ok (m', f)) : m'.get f.id = some f ∧ f.uri.asStr = u.asStr ∧ f.src.content = t ∧ m'.find u = some f.id ∧
      (m' = m ∨ (m.get f.id = none ∧ f.uri = u)) ∧ ∀ u' : FileName, u'.asStr ≠ u.asStr → m'.find u' = m.find u' := by
  obtain ⟨c, -, hc, hi⟩ := load_cases h
  obtain ⟨-, h2, h3, h4⟩ := insert_wf hw hi
  rcases insert_cases hi with ⟨rfl, _, h5⟩ | ⟨_, _, hle, hf, hm⟩ | ⟨_, _, hle, hf, hm⟩
  · exact ⟨h2, h3, by rw [h5, hc], h4, .inl rfl, fun _ _ => rfl⟩
  · refine ⟨h2, h3, by rw [hf]; exact hc, h4, .inr ⟨?_, by rw [hf]⟩, ?_⟩
    · rw [hf, get_file hle]
      exact List.getElem?_eq_none (Nat.le_refl _)
    · intro u' hne
      rw [hm]
      simp [find, Map.insert, hne]
  · refine ⟨h2, h3, by rw [hf]; exact hc, h4, .inr ⟨?_, by rw [hf]⟩, ?_⟩
    · rw [hf, get_arg hle]
      exact List.getElem?_eq_none (Nat.le_refl _)
    · intro u' hne
      rw [hm]
      simp [find, Map.insert, hne]

/-- **C29** (part): the file has the name which was given, if no other name of the same text was given before. -/
theorem C29_named_partial {m m' : Manager} {g : SourceGroup} {u : FileName} {t : Buf} {f : SFile} (hw : m.WF)
    (hn : ∀ f', (f' ∈ m.files ∨ f' ∈ m.arguments) → f'.uri.asStr = u.asStr → f'.uri = u) (h : m.load g u t = .ok (m', f)) : f.uri = u := by
  obtain ⟨h1, h2, -, -, h3, -⟩ := C29_loaded hw h
  rcases h3 with rfl | ⟨_, h3⟩
  · refine hn f ?_ h2
    unfold Manager.get at h1
    split at h1
    · exact .inr (List.mem_of_getElem? h1)
    · exact .inl (List.mem_of_getElem? h1)
  · exact h3

/-- In full, a file would always have the name which was given. It does not: the standard input and a file called `stdin` share
their text, and so do all paths which are not valid Unicode. -/
theorem C29_named_refuted :
    (∃ (m1 m2 : Manager) (f1 f2 : SFile), Manager.empty.load .file (.ofPath "-") (bytes "a") = .ok (m1, f1) ∧
      m1.load .file (.ofPath "stdin") (bytes "a") = .ok (m2, f2) ∧ f2.uri = .stdin ∧ f2 = f1) ∧
    ∃ (m1 m2 : Manager) (f1 f2 : SFile), Manager.empty.load .file (.badPath [0xff]) (bytes "a") = .ok (m1, f1) ∧
      m1.load .file (.badPath [0xfe]) (bytes "b") = .ok (m2, f2) ∧ m2.find (.badPath [0xff]) = some f2.id ∧ f2.id ≠ f1.id :=
  ⟨⟨_, _, _, _, rfl, rfl, rfl, rfl⟩, ⟨_, _, _, _, rfl, rfl, rfl, by decide⟩⟩

/-- A name keeps leading to a file as long as nothing else is loaded under it. -/
theorem find_kept {os : List MOp} {u : FileName} : ∀ {m m' : Manager}, (∀ g (u' : FileName) t, u'.asStr = u.asStr → MOp.load g u' t ∉ os) → m.WF →
    m.run os = .ok m' → m'.find u = m.find u := by
  induction os with
  | nil => intro m m' _ _ h; have := Except.ok.inj h; subst this; rfl
  | cons o os ih =>
    intro m m' hno hw h
    obtain ⟨m1, h1, h2⟩ := run_cons h
    rw [ih (fun g u' t he hm => hno g u' t he (List.mem_cons_of_mem _ hm)) (step_wf hw h1) h2]
    cases o with
    | load g u' t =>
      simp only [step] at h1
      cases hl : m.load g u' t with
      | error e => rw [hl] at h1; exact absurd h1 (by simp [bind, Except.bind])
      | ok r =>
        obtain ⟨m2, f2⟩ := r
        rw [hl] at h1
        have := Except.ok.inj h1
        subst this
        refine (C29_loaded hw hl).2.2.2.2.2 u ?_
        intro he
        exact hno g u' t he.symm (by simp)
    | update id t sel v =>
      simp only [step] at h1
      cases hu : m.update id t sel v with
      | error e => rw [hu] at h1; exact absurd h1 (by simp [bind, Except.bind])
      | ok r =>
        rw [hu] at h1
        match r, hu, h1 with
        | some (.ok m2), hu, h1 =>
          have := Except.ok.inj h1
          subst this
          rcases update_cases hu with ⟨_, _, _, _, _, rfl⟩ | ⟨_, _, _, _, _, rfl⟩ <;> rfl
        | some (.error e), hu, h1 =>
          have := Except.ok.inj h1
          subst this
          rfl
        | none, hu, h1 =>
          have := Except.ok.inj h1
          subst this
          rfl

/-- **C29** (part): loading a name and content again returns the same file and changes nothing, provided nothing was
loaded under this name in between and the file was not edited. -/
theorem C29_again_partial {m m1 m2 m3 : Manager} {g g' : SourceGroup} {u : FileName} {t : Buf} {f f' : SFile}
    {os : List MOp} (hw : m.WF) (h1 : m.load g u t = .ok (m1, f)) (h2 : m1.run os = .ok m2)
    (hno : ∀ g (u' : FileName) t, u'.asStr = u.asStr → MOp.load g u' t ∉ os) (hno' : ∀ t sel v, MOp.update f.id t sel v ∉ os)
    (h3 : m2.load g' u t = .ok (m3, f')) : f' = f ∧ m3 = m2 := by
  obtain ⟨c, -, hc, hi⟩ := load_cases h1
  have hw1 := (insert_wf hw hi).1
  obtain ⟨a1, -, a2, a3, -, -⟩ := C29_loaded hw h1
  have hk := C29_stable hw1 a1 hno' h2
  have hf := find_kept hno hw1 h2
  rw [a3] at hf
  obtain ⟨c', -, hc', hi'⟩ := load_cases h3
  rcases insert_cases hi' with ⟨rfl, ⟨id, h5, h6⟩, _⟩ | ⟨hn, _⟩ | ⟨hn, _⟩
  · unfold find at hf
    rw [hf] at h5
    have := Option.some.inj h5
    subst this
    rw [hk] at h6
    exact ⟨(Option.some.inj h6).symm, rfl⟩
  · exact absurd (by rw [a2, hc']) (hn _ _ hf hk)
  · exact absurd (by rw [a2, hc']) (hn _ _ hf hk)

/-- The content loaded last under a name of this text. -/
def lastLoaded (u : FileName) : List MOp → Option Buf
  | [] => none
  | .load _ u' t :: os => (lastLoaded u os).orElse fun _ => if u'.asStr = u.asStr then some t else none
  | .update .. :: os => lastLoaded u os

/-- **C29**: a name leads to what was loaded last under it. -/
theorem C29_latest {u : FileName} {os : List MOp} : ∀ {m m' : Manager}, m.WF → (∀ id t sel v, MOp.update id t sel v ∉ os) →
    m.run os = .ok m' →
    (m'.getByUri u).map (·.src.content) = (lastLoaded u os).orElse fun _ => (m.getByUri u).map (·.src.content) := by
  induction os with
  | nil => intro m m' _ _ h; have := Except.ok.inj h; subst this; rfl
  | cons o os ih =>
    intro m m' hw hno h
    obtain ⟨m1, h1, h2⟩ := run_cons h
    rw [ih (step_wf hw h1) (fun id t sel v hm => hno id t sel v (List.mem_cons_of_mem _ hm)) h2]
    cases o with
    | update id t sel v => exact absurd (by simp) (hno id t sel v)
    | load g u' t =>
      simp only [step] at h1
      cases hl : m.load g u' t with
      | error e => rw [hl] at h1; exact absurd h1 (by simp [bind, Except.bind])
      | ok r =>
        obtain ⟨m2, f2⟩ := r
        rw [hl] at h1
        have := Except.ok.inj h1
        subst this
        obtain ⟨a1, a2, a3, a4, -, a5⟩ := C29_loaded hw hl
        show _ = Option.orElse (Option.orElse (lastLoaded u os) _) _
        cases lastLoaded u os with
        | some x => rfl
        | none =>
          simp only [Option.orElse]
          by_cases he : u'.asStr = u.asStr
          · rw [if_pos he]
            show _ = some t
            unfold getByUri
            rw [show m2.find u = m2.find u' by unfold find; rw [he], a4]
            show (m2.get f2.id).map _ = _
            rw [a1, Option.map_some, a3]
          · rw [if_neg he]
            show Option.map _ (m2.getByUri u) = Option.map _ (m.getByUri u)
            have hg : m2.getByUri u = m.getByUri u := by
              unfold getByUri
              rw [a5 u (fun h => he h.symm)]
              cases hf : m.find u with
              | none => rfl
              | some id =>
                obtain ⟨f, b1, -, -⟩ := hw.uri u.asStr id hf
                obtain ⟨c, -, -, hi⟩ := load_cases hl
                show m2.get id = m.get id
                rw [b1, insert_get hi b1]
            rw [hg]

/-- **C29**: an edit changes the content of the file it names as the edit says, and nothing else of it. -/
theorem C29_edited {m m' : Manager} {id : Nat} {t : Buf} {sel : Option Selection} {v : Int} {f : SFile} (hw : m.WF)
    (hg : m.get id = some f) (hid : f.id = id) (h : m.update id t sel v = .ok (some (.ok m'))) :
    ∃ src, f.src.update t sel v = .ok (.ok src) ∧ m'.get id = some { f with src := src } := by
  subst hid
  rcases hw.place hg with ⟨hle, hp⟩ | ⟨i, hle, hi, hp⟩
  · rcases update_cases h with ⟨f', src, h0, h1, h2, rfl⟩ | ⟨f', src, h0, h1, h2, rfl⟩
    · have hidx : (SourceId.toIndex f.id) = f.id := by unfold SourceId.toIndex; omega
      rw [hidx] at h1 ⊢
      rw [hp] at h1
      have := Option.some.inj h1
      subst this
      refine ⟨src, h2, ?_⟩
      rw [get_file hle]
      have hlt : f.id < m.files.length := by
        by_contra hn
        rw [List.getElem?_eq_none (by omega)] at hp
        exact absurd hp (by simp)
      exact List.getElem?_set_self hlt
    · unfold SourceId.MAX_INDEX at hle
      omega
  · unfold SourceId.MAX_INDEX at hle
    rcases update_cases h with ⟨f', src, h0, h1, h2, rfl⟩ | ⟨f', src, h0, h1, h2, rfl⟩
    · omega
    · have hidx : (SourceId.toIndex f.id) = i := by unfold SourceId.toIndex; omega
      rw [hidx] at h1 ⊢
      rw [hp] at h1
      have := Option.some.inj h1
      subst this
      refine ⟨src, h2, ?_⟩
      rw [hi, get_arg (by unfold SourceId.MAX_INDEX; omega)]
      have hlt : i < m.arguments.length := by
        by_contra hn
        rw [List.getElem?_eq_none (by omega)] at hp
        exact absurd hp (by simp)
      exact List.getElem?_set_self hlt

/-- In full, loading the same name and content again would always return the same id. It does not when another content
was loaded under the name in between: `a`, `b`, `a` under one name gives three ids. -/
theorem C29_again_refuted : ∃ (m1 m2 m3 : Manager) (f1 f2 f3 : SFile),
    Manager.empty.load .file (.path "x") (bytes "a") = .ok (m1, f1) ∧ m1.load .file (.path "x") (bytes "b") = .ok (m2, f2) ∧
    m2.load .file (.path "x") (bytes "a") = .ok (m3, f3) ∧ f1.id = 0 ∧ f3.id = 2 :=
  ⟨_, _, _, _, _, _, rfl, rfl, rfl, rfl, rfl⟩

/-- A command line argument with name and content of a loaded file is given the id of that file. -/
theorem C29_group_refuted : ∃ (m1 m2 : Manager) (f1 f2 : SFile),
    Manager.empty.load .file (.path "x") (bytes "a") = .ok (m1, f1) ∧ m1.load .argument (.path "x") (bytes "a") = .ok (m2, f2) ∧
    (SourceId.isCliArgument f2.id) = false :=
  ⟨_, _, _, _, rfl, rfl, rfl⟩

/-- Reachable managers meet the hypothesis of the theorems above; this one has two files and an argument. -/
example : ∃ m, Manager.empty.run [.load .file (.path "x") (bytes "a"), .load .argument (.path "y") (bytes "b"),
    .load .file (.path "x") (bytes "c"), .update 0 (bytes "z") (some ⟨⟨0, 0⟩, ⟨0, 1⟩⟩) 1] = .ok m ∧ m.WF ∧ m.files.length = 2 ∧
    m.arguments.length = 1 ∧ m.find (.path "x") = some 1 :=
  ⟨_, rfl, run_wf empty_wf (os := [.load .file (.path "x") (bytes "a"), .load .argument (.path "y") (bytes "b"),
    .load .file (.path "x") (bytes "c"), .update 0 (bytes "z") (some ⟨⟨0, 0⟩, ⟨0, 1⟩⟩) 1]) rfl, rfl, rfl, rfl⟩

/-! ## C30 -/

namespace Interner

/-- Names and strings agree. -/
def WF (t : Interner) : Prop := ∀ (s : String) (n : Nat), t.names s = some n ↔ t.strings[n]? = some s

/-- Intern strings one after the other. -/
def internAll (t : Interner) : List String → P Interner
  | [] => .ok t
  | s :: ss => do
    let r ← t.intern s
    r.1.internAll ss

theorem intern_cases {t t' : Interner} {s : String} {n : Nat} (h : t.intern s = .ok (t', n)) :
    (t' = t ∧ t.names s = some n) ∨
    (t.names s = none ∧ n = t.strings.length ∧ t' = ⟨t.names.insert s n, t.strings ++ [s]⟩) := by
  unfold intern at h
  cases hn : t.names s with
  | some k =>
    rw [hn] at h
    simp only [Except.ok.injEq, Prod.mk.injEq] at h
    exact .inl ⟨h.1.symm, by rw [h.2]⟩
  | none =>
    rw [hn] at h
    simp only at h
    split at h
    · simp only [Except.ok.injEq, Prod.mk.injEq] at h
      exact .inr ⟨rfl, h.2.symm, by rw [← h.1, ← h.2]⟩
    · exact absurd h (by simp)

theorem intern_wf {t t' : Interner} {s : String} {n : Nat} (hw : t.WF) (h : t.intern s = .ok (t', n)) :
    t'.WF ∧ t'.strings[n]? = some s ∧ ∀ (k : Nat) (x : String), t.strings[k]? = some x → t'.strings[k]? = some x := by
  rcases intern_cases h with ⟨rfl, h1⟩ | ⟨h1, h2, rfl⟩
  · exact ⟨hw, (hw s n).1 h1, fun k x h => h⟩
  · subst h2
    refine ⟨?_, getElem?_snoc.2 (.inr ⟨rfl, rfl⟩), fun k x h => getElem?_keep h⟩
    intro s' n'
    show (if s' = s then some t.strings.length else t.names s') = some n' ↔ (t.strings ++ [s])[n']? = some s'
    rw [getElem?_snoc]
    split
    · rename_i he
      subst he
      constructor
      · intro h; exact .inr ⟨(Option.some.inj h).symm, rfl⟩
      · rintro (h | ⟨h, _⟩)
        · rw [(hw _ _).2 h] at h1; exact absurd h1 (by simp)
        · rw [h]
    · rename_i he
      rw [hw]
      constructor
      · exact .inl
      · rintro (h | ⟨_, h⟩)
        · exact h
        · exact absurd h.symm he

theorem internAll_wf : ∀ {ss : List String} {t t' : Interner}, t.WF → t.internAll ss = .ok t' →
    t'.WF ∧ ∀ (k : Nat) (x : String), t.strings[k]? = some x → t'.strings[k]? = some x := by
  intro ss
  induction ss with
  | nil => intro t t' hw h; have := Except.ok.inj h; subst this; exact ⟨hw, fun k x h => h⟩
  | cons s ss ih =>
    intro t t' hw h
    unfold internAll at h
    cases hi : t.intern s with
    | error e => rw [hi] at h; exact absurd h (by simp [bind, Except.bind])
    | ok r =>
      obtain ⟨t1, n⟩ := r
      rw [hi] at h
      obtain ⟨a1, -, a3⟩ := intern_wf hw hi
      obtain ⟨b1, b2⟩ := ih a1 h
      exact ⟨b1, fun k x hk => b2 k x (a3 k x hk)⟩

theorem init_wf {builtin : List String} (hn : builtin.Nodup) : (init builtin).WF := by
  have key : ∀ (rest done : List String) (t : Interner), (done ++ rest).Nodup → t.WF → t.strings = done →
      ((rest.zipIdx done.length).foldl (fun t (s, i) => ⟨t.names.insert s i, t.strings ++ [s]⟩) t : Interner).WF := by
    intro rest
    induction rest with
    | nil => intro done t _ hw _; exact hw
    | cons s rest ih =>
      intro done t hnd hw ht
      rw [List.zipIdx_cons, List.foldl_cons]
      have hnd' : (done ++ [s] ++ rest).Nodup := by simpa using hnd
      have := ih (done ++ [s]) ⟨t.names.insert s done.length, t.strings ++ [s]⟩ hnd' ?_ (by rw [ht])
      · rw [List.length_append] at this
        exact this
      · have hnone : t.names s = none := by
          cases h : t.names s with
          | none => rfl
          | some k =>
            have := (hw _ _).1 h
            rw [ht] at this
            have hm := List.mem_of_getElem? this
            rw [List.append_assoc, List.nodup_append] at hnd'
            exact absurd rfl (hnd'.2.2 s hm s (by simp))
        have hi : t.names.insert s done.length = t.names.insert s t.strings.length := by rw [ht]
        intro s' n'
        show (if s' = s then some done.length else t.names s') = some n' ↔ (t.strings ++ [s])[n']? = some s'
        rw [getElem?_snoc, ht]
        split
        · rename_i he
          subst he
          constructor
          · intro h; exact .inr ⟨(Option.some.inj h).symm, rfl⟩
          · rintro (h | ⟨h, _⟩)
            · rw [← ht] at h; rw [(hw _ _).2 h] at hnone; exact absurd hnone (by simp)
            · rw [h]
        · rename_i he
          rw [hw, ht]
          constructor
          · exact .inl
          · rintro (h | ⟨_, h⟩)
            · exact h
            · exact absurd h.symm he
  have := key builtin [] ⟨fun _ => none, []⟩ (by simpa using hn) (fun s n => by simp) rfl
  simpa [init] using this

end Interner

/-- **C30**: from the start, whatever was interned before (`before`) and after (`after`): a symbol reads back as its
string, also later, and two symbols are equal exactly if their strings are. -/
theorem C30_symbols {builtin before between after : List String} (hn : builtin.Nodup) {t1 t2 t3 t4 t5 : Interner}
    {s s' : String} {n n' : Nat} (h1 : (Interner.init builtin).internAll before = .ok t1)
    (h2 : t1.intern s = .ok (t2, n)) (h3 : t2.internAll between = .ok t3) (h4 : t3.intern s' = .ok (t4, n'))
    (h5 : t4.internAll after = .ok t5) :
    t2.get n = .ok s ∧ t5.get n = .ok s ∧ t5.get n' = .ok s' ∧ (n = n' ↔ s = s') := by
  obtain ⟨w1, -⟩ := Interner.internAll_wf (Interner.init_wf hn) h1
  obtain ⟨w2, g2, -⟩ := Interner.intern_wf w1 h2
  obtain ⟨w3, k3⟩ := Interner.internAll_wf w2 h3
  obtain ⟨w4, g4, k4⟩ := Interner.intern_wf w3 h4
  obtain ⟨w5, k5⟩ := Interner.internAll_wf w4 h5
  have e5 := k5 _ _ (k4 _ _ (k3 _ _ g2))
  have e5' := k5 _ _ g4
  refine ⟨by unfold Interner.get; rw [g2], by unfold Interner.get; rw [e5], by unfold Interner.get; rw [e5'], ?_⟩
  constructor
  · intro h
    subst h
    rw [e5] at e5'
    exact Option.some.inj e5'
  · intro h
    subst h
    have a := (w5 s n).2 e5
    have b := (w5 s n').2 e5'
    rw [a] at b
    exact Option.some.inj b

/-- Interning fails only when the table is full. -/
theorem C30_total (t : Interner) (s : String) (h : t.strings.length ≤ Interner.MAX) : ∃ r, t.intern s = .ok r := by
  unfold Interner.intern
  cases t.names s with
  | some n => exact ⟨_, rfl⟩
  | none => rw [if_pos h]; exact ⟨_, rfl⟩

example : ∃ t1 t2 : Interner, (Interner.init ["false", "true", ""]).intern "X" = .ok (t1, 3) ∧
    t1.internAll ["Y", "true"] = .ok t2 ∧ t2.intern "X" = .ok (t2, 3) :=
  ⟨_, _, rfl, rfl, rfl⟩

/-! ## C31 -/

/-- An identifier: letters, digits and underscores, not beginning with a digit. -/
def Identifier (k : List Char) : Prop :=
  (∃ c cs, k = c :: cs ∧ ¬ ('0' ≤ c ∧ c ≤ '9')) ∧
    ∀ c ∈ k, c = '_' ∨ ('a' ≤ c ∧ c ≤ 'z') ∨ ('A' ≤ c ∧ c ≤ 'Z') ∨ ('0' ≤ c ∧ c ≤ '9')

theorem identifier_iff (k : List Char) : isValidVariableName k = true ↔ Identifier k := by
  cases k with
  | nil => simp [isValidVariableName, Identifier]
  | cons c cs =>
    simp only [isValidVariableName, Identifier, isAsciiAlphanumeric, isAsciiAlphabetic, Bool.and_eq_true, Bool.or_eq_true,
      beq_iff_eq, decide_eq_true_eq, List.all_eq_true, List.cons.injEq, List.forall_mem_cons]
    constructor
    · rintro ⟨h1, h2⟩
      refine ⟨⟨c, cs, ⟨rfl, rfl⟩, ?_⟩, by tauto, fun x hx => by have := h2 x hx; tauto⟩
      rintro ⟨h3, h4⟩
      rcases h1 with h1 | ⟨h1, _⟩ | ⟨h1, _⟩
      · subst h1; exact absurd h4 (by decide)
      · exact absurd (Char.le_trans h1 h4) (by decide)
      · exact absurd (Char.le_trans h1 h4) (by decide)
    · rintro ⟨⟨c', cs', ⟨rfl, rfl⟩, h1⟩, h2, h3⟩
      exact ⟨by tauto, fun x hx => by have := h3 x hx; tauto⟩

theorem splitOnce_some {x : Char} : ∀ {s k v : List Char},
    splitOnce x s = some (k, v) ↔ s = k ++ x :: v ∧ x ∉ k := by
  intro s
  induction s with
  | nil => intro k v; simp [splitOnce]
  | cons c cs ih =>
    intro k v
    unfold splitOnce
    by_cases h : c = x
    · subst h
      simp only [beq_self_eq_true, if_true, Option.some.injEq, Prod.mk.injEq]
      constructor
      · rintro ⟨rfl, rfl⟩; simp
      · rintro ⟨h1, h2⟩
        cases k with
        | nil => simp at h1; exact ⟨rfl, h1⟩
        | cons d ds => simp at h1; exact absurd h1.1 (by intro h; apply h2; simp [h])
    · have : (c == x) = false := by simpa using h
      rw [this]
      simp only [Bool.false_eq_true, if_false, Option.map_eq_some_iff, Prod.exists, Prod.mk.injEq]
      constructor
      · rintro ⟨a, b, h1, rfl, rfl⟩
        obtain ⟨rfl, h2⟩ := ih.1 h1
        refine ⟨rfl, ?_⟩
        simp only [List.mem_cons, not_or]
        exact ⟨fun e => h e.symm, h2⟩
      · rintro ⟨h1, h2⟩
        cases k with
        | nil => simp at h1; exact absurd h1.1 h
        | cons d ds =>
          simp only [List.cons_append, List.cons.injEq] at h1
          obtain ⟨rfl, h1⟩ := h1
          simp only [List.mem_cons, not_or] at h2
          exact ⟨ds, v, ih.2 ⟨h1, h2.2⟩, rfl, rfl⟩

theorem splitOnce_none {s : List Char} : splitOnce '=' s = none ↔ '=' ∉ s := by
  induction s with
  | nil => simp [splitOnce]
  | cons c cs ih =>
    unfold splitOnce
    by_cases h : c = '='
    · simp [h]
    · have h1 : (c == '=') = false := by simpa using h
      rw [h1]
      simp only [Bool.false_eq_true, if_false, Option.map_eq_none_iff, ih, List.mem_cons, not_or]
      exact ⟨fun h2 => ⟨fun e => h e.symm, h2⟩, fun h2 => h2.2⟩

/-- **C31**: a definition is accepted exactly if it is an identifier, `=` and any text; the name is the identifier, the
value the text. -/
theorem C31_accepted (s : List Char) (n : VName) (v : List Char) :
    parseDefinition s = .ok (n, v) ↔ ∃ k, Identifier k ∧ s = k ++ '=' :: v ∧ n = .user (String.ofList k) := by
  unfold parseDefinition
  constructor
  · intro h
    split at h
    · exact absurd h (by simp)
    · cases hs : splitOnce '=' s with
      | none => rw [hs] at h; exact absurd h (by simp)
      | some kv =>
        obtain ⟨k, v'⟩ := kv
        rw [hs] at h
        dsimp only at h
        split at h
        · exact absurd h (by simp)
        · split at h
          · exact absurd h (by simp)
          · rename_i hk hid
            have hid' : isValidVariableName k = true := by simpa using hid
            have hI := (identifier_iff k).1 hid'
            have hp : parseVariableName k = .ok (.user (String.ofList k)) := by
              unfold parseVariableName
              obtain ⟨⟨c, cs, rfl, -⟩, hall⟩ := hI
              have hc := hall c (by simp)
              have h1 : c ≠ '$' := by rintro rfl; revert hc; decide
              have h2 : c ≠ '@' := by rintro rfl; revert hc; decide
              split
              rename_i x sig un heq
              split at heq
              · rename_i hh; exact absurd (List.cons.inj hh).1 h1
              · rename_i hh; exact absurd (List.cons.inj hh).1 h2
              · simp only [Prod.mk.injEq] at heq
                obtain ⟨rfl, rfl⟩ := heq
                simp [hid']
            rw [hp] at h
            simp only [Except.ok.injEq, Prod.mk.injEq] at h
            obtain ⟨rfl, rfl⟩ := h
            exact ⟨k, hI, (splitOnce_some.1 hs).1, rfl⟩
  · rintro ⟨k, hI, rfl, rfl⟩
    have hid' := (identifier_iff k).2 hI
    have hk : k ≠ [] := by rintro rfl; simp [isValidVariableName] at hid'
    have hne : (k ++ '=' :: v).isEmpty = false := by simp
    have hs : splitOnce '=' (k ++ '=' :: v) = some (k, v) := by
      refine splitOnce_some.2 ⟨rfl, ?_⟩
      intro hm
      have := hI.2 _ hm
      revert this
      decide
    have hp : parseVariableName k = .ok (.user (String.ofList k)) := by
      unfold parseVariableName
      obtain ⟨⟨c, cs, rfl, -⟩, hall⟩ := hI
      have hc := hall c (by simp)
      have h1 : c ≠ '$' := by rintro rfl; revert hc; decide
      have h2 : c ≠ '@' := by rintro rfl; revert hc; decide
      split
      rename_i x sig un heq
      split at heq
      · rename_i hh; exact absurd (List.cons.inj hh).1 h1
      · rename_i hh; exact absurd (List.cons.inj hh).1 h2
      · simp only [Prod.mk.injEq] at heq
        obtain ⟨rfl, rfl⟩ := heq
        simp [hid']
    rw [hne, hs]
    simp [hk, hid', hp]

/-- Which refusal: nothing given, no `=`, nothing before it, or something which is not an identifier. -/
theorem C31_refused (s : List Char) :
    (parseDefinition s = .error .empty ↔ s = []) ∧
    (parseDefinition s = .error .missingEquals ↔ s ≠ [] ∧ '=' ∉ s) ∧
    (parseDefinition s = .error .emptyName ↔ ∃ v, s = '=' :: v) := by
  have hnone := splitOnce_none (s := s)
  have hpv : ∀ k e, parseVariableName k = .error e → e = .invalidName := by
    intro k e h
    unfold parseVariableName at h
    split at h
    split at h
    · exact (Except.error.inj h).symm
    · split at h <;> exact absurd h (by simp)
  unfold parseDefinition
  cases s with
  | nil => simp
  | cons c cs =>
    simp only [List.isEmpty_cons, Bool.false_eq_true, if_false]
    cases hs : splitOnce '=' (c :: cs) with
    | none =>
      have := hnone.1 hs
      simp only [List.mem_cons, not_or] at this
      refine ⟨by simp, by simp [this], ?_⟩
      constructor
      · intro h; exact absurd h (by simp)
      · rintro ⟨v, h⟩
        exact absurd (List.cons.inj h).1.symm this.1
    | some kv =>
      obtain ⟨k, v⟩ := kv
      obtain ⟨h1, h2⟩ := splitOnce_some.1 hs
      have hm : '=' ∈ c :: cs := by rw [h1]; simp
      cases k with
      | nil =>
        simp only [List.nil_append, List.cons.injEq] at h1
        simp [h1.1]
      | cons d ds =>
        simp only [List.isEmpty_cons, Bool.false_eq_true, if_false]
        have hce : c ≠ '=' := by
          simp only [List.cons_append, List.cons.injEq] at h1
          rw [h1.1]
          intro h
          exact h2 (by simp [h])
        have hres : ∀ r : Except DefinitionError (VName × List Char), (r = .error .invalidName ∨ ∃ x, r = .ok x) →
            (r = .error .empty ↔ c :: cs = []) ∧ (r = .error .missingEquals ↔ c :: cs ≠ [] ∧ '=' ∉ c :: cs) ∧
            (r = .error .emptyName ↔ ∃ v, c :: cs = '=' :: v) := by
          rintro r (rfl | ⟨x, rfl⟩) <;> simp [hm, hce] <;> simpa using hm
        apply hres
        split
        · exact .inl rfl
        · cases hp : parseVariableName (d :: ds) with
          | ok n => exact .inr ⟨_, rfl⟩
          | error e => exact .inl (by rw [hpv _ _ hp])

example : parseDefinition "A_1=x=y".toList = .ok (.user "A_1", "x=y".toList) := by decide
example : parseDefinition "$A=x".toList = .error .invalidName := by decide

end Litcheck
