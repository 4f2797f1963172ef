import Verif.Model.Report
import Verif.Spec.Report
import Verif.Props.Runner

/-!
# C97: what `lit` prints

* `C97_groups`, `C97_total`, `C97_table`: what a reader gets out of the printed report;
* `C97_run_partial`: over a whole run, every test discovered is in it exactly once, less those which ended with an error (`C60_lost_refuted`);
* `C97_quiet`: with `--quiet` the tests listed are those which failed;
* `C97_exit`: the report of a run which was not aborted lists a failure iff the exit code is not 0;
* `C97_live`, `C97_output`: what is printed when a test has come to its result.
-/

namespace Litcheck
namespace Runner
open LexSpec (lines)
open ReportSpec
variable {T : Type}

/-! ## Lines -/

theorem lines_line {l : Str} (h : '\n' ∉ l) (s : Str) : lines (line l ++ s) = l :: lines s := by
  induction l with
  | nil => simp [line, lines]
  | cons c l ih =>
    simp only [List.mem_cons, not_or] at h
    have := ih h.2
    simp only [line, List.cons_append, List.append_assoc] at this ⊢
    simp only [lines, List.nil_append] at this ⊢
    rw [if_neg (fun e => h.1 e.symm), this]

theorem lines_flatten {ls : List Str} (h : ∀ l ∈ ls, '\n' ∉ l) : lines ((ls.map line).flatten) = ls ++ [[]] := by
  induction ls with
  | nil => rfl
  | cons l ls ih =>
    simp only [List.map_cons, List.flatten_cons, List.cons_append]
    rw [lines_line (h l List.mem_cons_self), ih fun x hx => h x (List.mem_cons_of_mem _ hx)]

/-- The title of a group. -/
def heading (st : Status) (n : Nat) : Str := st.label ++ " Tests (".toList ++ digits n ++ "):".toList

/-- The lines of a group. -/
def groupLines (name : T → Str) (st : Status) (ts : List T) : List Str :=
  ("******************** ".toList ++ heading st ts.length) :: (ts.map fun t => "  ".toList ++ name t) ++ [[]]

/-- The statuses with a group. -/
def listedStatuses (quiet : Bool) (r : Results T) : List Status :=
  allStatuses.filter fun st => (r st).isSome && (st.isFailure || !quiet)

def rowLine (pct : Nat → Nat → Str) (total wl wc : Nat) (x : Status × Nat) : Str :=
  "  ".toList ++ padRight x.1.label wl ++ ": ".toList ++ padLeft (digits x.2) wc ++ " (".toList ++ pct x.2 total
    ++ "%)".toList

def tableLines (pct : Nat → Nat → Str) (r : Results T) : List Str :=
  (counts r).map (rowLine pct r.total (widest ((counts r).map fun x => x.1.label))
    (widest ((counts r).map fun x => digits x.2)))

def reportLines (quiet : Bool) (pct : Nat → Nat → Str) (name : T → Str) (r : Results T) : List Str :=
  ((listedStatuses quiet r).map fun st => groupLines name st ((r st).getD [])).flatten
    ++ ([] :: ("Total Discovered Tests: ".toList ++ digits r.total) :: tableLines pct r)

theorem printGroup_eq (name : T → Str) (st : Status) (ts : List T) :
    printGroup name st ts = ((groupLines name st ts).map line).flatten := by
  have e : List.replicate 20 '*' ++ " ".toList = "******************** ".toList := by decide
  simp only [printGroup, groupLines, heading, List.map_append, List.map_cons, List.map_map, List.flatten_append,
    List.flatten_cons, List.map_nil, List.flatten_nil, List.append_nil, e, List.append_assoc, List.cons_append]
  rfl

theorem printGroups_eq (quiet : Bool) (name : T → Str) (r : Results T) (sts : List Status) :
    printGroups quiet name r sts =
      ((((sts.filter fun st => (r st).isSome && (st.isFailure || !quiet)).map
        fun st => groupLines name st ((r st).getD [])).flatten).map line).flatten := by
  induction sts with
  | nil => rfl
  | cons st sts ih =>
    rw [printGroups]
    cases hr : r st with
    | none => simp [hr, ih]
    | some ts =>
      dsimp only
      by_cases hq : (!st.isFailure && quiet) = true
      · rw [if_pos hq, ih, List.filter_cons_of_neg]
        cases hf : st.isFailure <;> cases quiet <;> simp_all
      · rw [if_neg hq, ih, printGroup_eq, List.filter_cons_of_pos]
        · simp [hr]
        · cases hf : st.isFailure <;> cases quiet <;> simp_all

theorem printResults_eq (quiet : Bool) (pct : Nat → Nat → Str) (name : T → Str) (r : Results T) :
    printResults quiet pct name r = ((reportLines quiet pct name r).map line).flatten := by
  rw [printResults, printGroups_eq, reportLines]
  simp only [List.map_append, List.flatten_append, List.append_assoc, listedStatuses, List.map_cons, List.flatten_cons]
  congr 3
  simp only [tableLines, List.map_map]
  rfl

theorem digits_no {n : Nat} {c : Char} (hc : c.isDigit = false) : c ∉ digits n := fun h => by
  have := Nat.isDigit_of_mem_toDigits (by decide) (by decide) h
  rw [hc] at this; cases this

theorem label_no {st : Status} {c : Char} (hc : c = '\n' ∨ c = ':') : c ∉ st.label := by
  rcases hc with rfl | rfl <;> cases st <;> decide

theorem report_clean {quiet : Bool} {pct : Nat → Nat → Str} {name : T → Str} {r : Results T}
    (hp : ∀ a b, '\n' ∉ pct a b) (hn : ∀ st, ∀ t ∈ (r st).getD [], '\n' ∉ name t) :
    ∀ l ∈ reportLines quiet pct name r, '\n' ∉ l := by
  intro l hl
  rw [reportLines, List.mem_append] at hl
  rcases hl with hl | hl
  · obtain ⟨ls, hls, hl⟩ := List.mem_flatten.1 hl
    obtain ⟨st, _, rfl⟩ := List.mem_map.1 hls
    simp only [groupLines, List.mem_append, List.mem_cons, List.mem_map, List.not_mem_nil, or_false,
      List.cons_append] at hl
    rcases hl with rfl | ⟨t, ht, rfl⟩ | rfl
    · simp only [heading, List.mem_append, not_or]
      exact ⟨by decide, ⟨⟨label_no (.inl rfl), by decide⟩, digits_no (by decide)⟩, by decide⟩
    · simp only [List.mem_append, not_or]
      exact ⟨by decide, hn st t ht⟩
    · simp
  · simp only [List.mem_cons, tableLines, List.mem_map] at hl
    rcases hl with rfl | rfl | ⟨x, _, rfl⟩
    · simp
    · simp only [List.mem_append, not_or]
      exact ⟨by decide, digits_no (by decide)⟩
    · simp only [rowLine, padRight, padLeft, List.mem_append, not_or, List.mem_replicate]
      exact ⟨⟨⟨⟨⟨⟨by decide, label_no (.inl rfl), by simp⟩, by decide⟩, by simp, digits_no (by decide)⟩, by decide⟩, hp _ _⟩,
        by decide⟩

theorem report_lines {quiet : Bool} {pct : Nat → Nat → Str} {name : T → Str} {r : Results T}
    (hp : ∀ a b, '\n' ∉ pct a b) (hn : ∀ st, ∀ t ∈ (r st).getD [], '\n' ∉ name t) :
    lines (printResults quiet pct name r) = reportLines quiet pct name r ++ [[]] := by
  rw [printResults_eq, lines_flatten (report_clean hp hn)]

/-! ## Reading the groups -/

theorem title_heading (s : Str) : title ("******************** ".toList ++ s) = some s := by
  have : ("******************** ".toList ++ s) =
    '*'::'*'::'*'::'*'::'*'::'*'::'*'::'*'::'*'::'*'::'*'::'*'::'*'::'*'::'*'::'*'::'*'::'*'::'*'::'*'::' '::s := rfl
  rw [this]
  rfl

theorem title_name (s : Str) : title ("  ".toList ++ s) = none := rfl
theorem title_row (s : Str) : title (' ' :: s) = none := rfl
theorem title_total (s : Str) : title ("Total Discovered Tests: ".toList ++ s) = none := rfl
theorem title_nil : title [] = none := rfl

theorem groups_skip {as bs : List Str} (h : ∀ l ∈ as, title l = none) : groups (as ++ bs) = groups bs := by
  induction as with
  | nil => rfl
  | cons a as ih =>
    simp only [List.cons_append, groups, h a List.mem_cons_self]
    exact ih fun l hl => h l (List.mem_cons_of_mem _ hl)

theorem takeWhile_names (xs : List Str) (bs : List Str) :
    ((xs.map fun x => "  ".toList ++ x) ++ [] :: bs).takeWhile (fun x => !x.isEmpty) = xs.map fun x => "  ".toList ++ x := by
  induction xs with
  | nil => rfl
  | cons x xs ih => 
    simp only [List.map_cons, List.cons_append]
    rw [List.takeWhile_cons_of_pos (by rfl), ih]

theorem groups_group (name : T → Str) (st : Status) (ts : List T) (bs : List Str) :
    groups (groupLines name st ts ++ bs) = (heading st ts.length, ts.map name) :: groups bs := by
  have e : groupLines name st ts ++ bs =
      ("******************** ".toList ++ heading st ts.length) ::
        (((ts.map name).map fun x => "  ".toList ++ x) ++ [] :: bs) := by
    simp [groupLines, List.map_map, Function.comp_def]
  rw [e, groups, title_heading]
  dsimp only
  rw [takeWhile_names]
  congr 1
  · congr 1
    rw [List.map_map]
    conv_rhs => rw [← List.map_id (ts.map name)]
    apply List.map_congr_left
    intro x _
    rfl
  · rw [groups_skip]
    · rw [groups, title_nil]
    · intro l hl
      obtain ⟨x, _, rfl⟩ := List.mem_map.1 hl
      exact title_name x

theorem groups_lines (name : T → Str) (r : Results T) (sts : List Status) (bs : List Str) :
    groups ((sts.map fun st => groupLines name st ((r st).getD [])).flatten ++ bs) =
      (sts.map fun st => (heading st ((r st).getD []).length, ((r st).getD []).map name)) ++ groups bs := by
  induction sts with
  | nil => rfl
  | cons st sts ih =>
    simp only [List.map_cons, List.flatten_cons, List.append_assoc, List.cons_append]
    rw [groups_group, ih]

theorem rest_none (pct : Nat → Nat → Str) (r : Results T) :
    groups (([] :: ("Total Discovered Tests: ".toList ++ digits r.total) :: tableLines pct r) ++ [[]]) = [] := by
  have := groups_skip (as := (([] : Str) :: ("Total Discovered Tests: ".toList ++ digits r.total) :: tableLines pct r) ++ [[]])
    (bs := []) (by
      intro l hl
      simp only [List.mem_append, List.mem_cons, tableLines, List.mem_map, List.not_mem_nil, or_false] at hl
      rcases hl with (rfl | rfl | ⟨x, _, rfl⟩) | rfl
      · rfl
      · exact title_total _
      · rfl
      · rfl)
  rw [List.append_nil] at this
  rw [this]
  rfl

/-- **C97.** The report, read line by line, has exactly these groups: for every status some test has, in the order of the
statuses (under `--quiet` only for the failures), a title with the status and the number of its tests, and their
names, in order. For all tests whose names are of one line. -/
theorem C97_groups {quiet : Bool} {pct : Nat → Nat → Str} {name : T → Str} {r : Results T}
    (hp : ∀ a b, '\n' ∉ pct a b) (hn : ∀ st, ∀ t ∈ (r st).getD [], '\n' ∉ name t) :
    groups (lines (printResults quiet pct name r)) =
      (allStatuses.filter fun st => (r st).isSome && (st.isFailure || !quiet)).map fun st =>
        (st.label ++ " Tests (".toList ++ Nat.toDigits 10 ((r st).getD []).length ++ "):".toList,
          ((r st).getD []).map name) := by
  rw [report_lines hp hn, reportLines, List.append_assoc, groups_lines, rest_none, List.append_nil]
  rfl

/-! ## Reading the total and the table -/

theorem not_total_name (s : Str) : "Total Discovered Tests: ".toList.isPrefixOf ("  ".toList ++ s) = false := rfl

theorem before_total (quiet : Bool) (name : T → Str) (r : Results T) :
    ∀ l ∈ ((listedStatuses quiet r).map fun st => groupLines name st ((r st).getD [])).flatten ++ [[]],
      "Total Discovered Tests: ".toList.isPrefixOf l = false := by
  intro l hl
  rw [List.mem_append] at hl
  rcases hl with hl | hl
  · obtain ⟨ls, hls, hl⟩ := List.mem_flatten.1 hl
    obtain ⟨st, _, rfl⟩ := List.mem_map.1 hls
    simp only [groupLines, List.mem_append, List.mem_cons, List.mem_map, List.not_mem_nil, or_false,
      List.cons_append] at hl
    rcases hl with rfl | ⟨t, _, rfl⟩ | rfl <;> rfl
  · simp only [List.mem_cons, List.not_mem_nil, or_false] at hl
    subst hl; rfl

theorem is_total (s : Str) : "Total Discovered Tests: ".toList.isPrefixOf ("Total Discovered Tests: ".toList ++ s) = true := by
  rw [List.isPrefixOf_iff_prefix]
  exact List.prefix_append _ _

theorem report_split (quiet : Bool) (pct : Nat → Nat → Str) (name : T → Str) (r : Results T) :
    reportLines quiet pct name r ++ [[]] =
      (((listedStatuses quiet r).map fun st => groupLines name st ((r st).getD [])).flatten ++ [[]])
        ++ ("Total Discovered Tests: ".toList ++ digits r.total) :: (tableLines pct r ++ [[]]) := by
  simp [reportLines]

/-- **C97.** The total printed is the sum of the numbers of tests with each status. -/
theorem C97_total {quiet : Bool} {pct : Nat → Nat → Str} {name : T → Str} {r : Results T}
    (hp : ∀ a b, '\n' ∉ pct a b) (hn : ∀ st, ∀ t ∈ (r st).getD [], '\n' ∉ name t) :
    total (lines (printResults quiet pct name r)) =
      some (Nat.toDigits 10 ((allStatuses.map fun st => ((r st).getD []).length).sum)) := by
  rw [report_lines hp hn, report_split, total, List.find?_append, List.find?_eq_none.2, Option.none_or, List.find?_cons_of_pos]
  · rfl
  · exact is_total _
  · intro l hl
    rw [before_total quiet name r l hl]
    exact Bool.false_ne_true

theorem label_ends (st : Status) (k : Nat) : trimEnd (st.label ++ List.replicate k ' ') = st.label := by
  rw [trimEnd, List.reverse_append, List.reverse_replicate, List.dropWhile_append_of_pos]
  · cases st <;> rfl
  · intro c hc
    rw [(List.mem_replicate.1 hc).2]; rfl

theorem takeWhile_stop {p : Char → Bool} {xs : Str} {y : Char} {ys : Str} (h : ∀ x ∈ xs, p x = true) (hy : p y = false) :
    (xs ++ y :: ys).takeWhile p = xs := by
  rw [List.takeWhile_append_of_pos h, List.takeWhile_cons_of_neg (by simp [hy]), List.append_nil]

theorem dropWhile_stop {p : Char → Bool} {xs : Str} {y : Char} {ys : Str} (h : ∀ x ∈ xs, p x = true) (hy : p y = false) :
    (xs ++ y :: ys).dropWhile p = y :: ys := by
  rw [List.dropWhile_append_of_pos h, List.dropWhile_cons_of_neg (by simp [hy])]

theorem row_line (pct : Nat → Nat → Str) (total wl wc : Nat) (x : Status × Nat) :
    row (rowLine pct total wl wc x) = (x.1.label, Nat.toDigits 10 x.2) := by
  obtain ⟨st, n⟩ := x
  have hcol : ∀ c ∈ padRight st.label wl, (c != ':') = true := by
    intro c hc
    simp only [padRight, List.mem_append, List.mem_replicate] at hc
    rcases hc with hc | ⟨_, rfl⟩
    · simp only [bne_iff_ne, ne_eq]; rintro rfl
      exact label_no (.inr rfl) hc
    · rfl
  have e : (rowLine pct total wl wc (st, n)).drop 2 =
      padRight st.label wl ++ ':' :: (' ' :: padLeft (digits n) wc ++ ' ' :: ('(' :: pct n total ++ "%)".toList)) := by
    simp [rowLine]
  rw [row, e, takeWhile_stop hcol rfl, dropWhile_stop hcol rfl]
  refine Prod.ext (label_ends _ _) ?_
  dsimp only
  rw [List.drop_succ_cons, List.drop_zero]
  obtain ⟨d, ds, hd⟩ : ∃ d ds, digits n = d :: ds := by
    cases h : digits n with
    | nil => exact absurd h Nat.toDigits_ne_nil
    | cons d ds => exact ⟨d, ds, rfl⟩
  have hdig : ∀ c ∈ digits n, (c != ' ') = true := by
    intro c hc
    simp only [bne_iff_ne, ne_eq]; rintro rfl
    exact digits_no (by decide) hc
  have e2 : ' ' :: padLeft (digits n) wc ++ ' ' :: ('(' :: pct n total ++ "%)".toList) =
      (' ' :: List.replicate (wc - (digits n).length) ' ') ++ d :: (ds ++ ' ' :: ('(' :: pct n total ++ "%)".toList)) := by
    simp [padLeft, hd]
  rw [e2, dropWhile_stop]
  · rw [← List.cons_append, ← hd, takeWhile_stop hdig rfl]
    rfl
  · intro c hc
    simp only [List.mem_cons, List.mem_replicate] at hc
    rcases hc with rfl | ⟨_, rfl⟩ <;> rfl
  · have := hdig d (by rw [hd]; exact List.mem_cons_self)
    simp only [bne_iff_ne, ne_eq] at this
    simpa using this

/-- **C97.** The statuses can be told apart in the report and in what is printed while the tests run: no two have the same words. -/
theorem C97_words (st st' : Status) : (st.label = st'.label ↔ st = st') ∧ (st.tag = st'.tag ↔ st = st') := by
  constructor <;> constructor
  · cases st <;> cases st' <;> first | exact fun _ => rfl | exact fun h => absurd h (by decide)
  · rintro rfl; rfl
  · cases st <;> cases st' <;> first | exact fun _ => rfl | exact fun h => absurd h (by decide)
  · rintro rfl; rfl

/-- **C97.** The rows of the table: every status some test has, in order, with the number of its tests. -/
theorem C97_table {quiet : Bool} {pct : Nat → Nat → Str} {name : T → Str} {r : Results T}
    (hp : ∀ a b, '\n' ∉ pct a b) (hn : ∀ st, ∀ t ∈ (r st).getD [], '\n' ∉ name t) :
    table (lines (printResults quiet pct name r)) =
      (allStatuses.filter fun st => (r st).isSome).map fun st => (st.label, Nat.toDigits 10 ((r st).getD []).length) := by
  rw [report_lines hp hn, report_split, table, List.dropWhile_append_of_pos, List.dropWhile_cons_of_neg]
  · rw [List.drop_succ_cons, List.drop_zero, List.filter_append,
      List.filter_cons_of_neg (by simp), List.filter_nil, List.append_nil, List.filter_eq_self.2]
    · rw [tableLines, List.map_map, counts]
      simp only [Function.comp_def, row_line]
      generalize allStatuses = sts
      induction sts with
      | nil => rfl
      | cons st sts ih =>
        cases hr : r st with
        | none => simp [hr, ih]
        | some ts => simp [hr, ih]
    · intro l hl
      obtain ⟨x, _, rfl⟩ := List.mem_map.1 hl
      rfl
  · rw [is_total]; simp
  · intro l hl
    rw [before_total quiet name r l hl]
    rfl

/-! ## Whole runs -/

/-- All names a report lists. -/
def listedNames (text : Str) : List Str := ((groups (lines text)).map Prod.snd).flatten

theorem expected_perm (sel : T → Bool) (reports : List (T × Status)) (left : List T) :
    ((allStatuses.map (expected sel reports left)).flatten).Perm (left ++ reports.map Prod.fst) := by
  classical
  rw [List.perm_iff_count]
  intro t
  have h1 : ∀ reports : List (T × Status),
      ((allStatuses.map fun st => ((reports.filter (fun x => x.2 = st)).map Prod.fst).count t)).sum
        = (reports.map Prod.fst).count t := by
    intro reports
    induction reports with
    | nil => rfl
    | cons x xs ih =>
      obtain ⟨u, st⟩ := x
      simp only [allStatuses, List.map_cons, List.map_nil, List.sum_cons, List.sum_nil] at ih ⊢
      cases st <;> simp [List.filter_cons, List.count_cons] at ih ⊢ <;> omega
  have h2 : (left.filter sel).count t + (left.filter (fun t => !sel t)).count t = left.count t := by
    rw [← List.count_append]
    exact (List.filter_append_perm sel left).count_eq t
  have := h1 reports
  rw [List.count_flatten, List.map_map]
  simp only [allStatuses, List.map_cons, List.map_nil, List.sum_cons, List.sum_nil, expected, List.count_append,
    Function.comp_apply, reduceCtorEq, if_false, if_true, List.count_nil] at this ⊢
  omega

theorem names_in {sel : T → Bool} {reports : List (T × Status)} {left : List T} {st : Status} {t : T}
    (h : t ∈ expected sel reports left st) : t ∈ reports.map Prod.fst ∨ t ∈ left := by
  simp only [expected, List.mem_append, List.mem_map, List.mem_filter] at h
  rcases h with ⟨x, ⟨hx, _⟩, rfl⟩ | h
  · exact .inl (List.mem_map.2 ⟨x, hx, rfl⟩)
  · right
    split at h
    · exact (List.mem_filter.1 h).1
    · split at h
      · exact (List.mem_filter.1 h).1
      · cases h

/-- Every test in the results of a run is one of those discovered. -/
theorem discovered {sel : T → Bool} {Exec : T → Option Status → Prop} (hr : Ran Exec) {tests : List T} {n : Nat}
    {es : List (Event T)} {s : State T} (h : Steps sel Exec (init n tests) es s)
    {r : Results T} (hc : collectResults sel s.reports s.queue = .ok r) :
    ∀ st, ∀ t ∈ (r st).getD [], t ∈ tests := by
  intro st t ht
  obtain ⟨c1, _, _⟩ := collect_eq sel s.reports s.queue (no_skipped hr h)
  rw [(c1 r hc).1] at ht
  have hp := (inv_steps h).places
  apply hp.subset
  simp only [List.mem_append]
  rcases names_in ht with h | h
  · exact .inr (.inr (.inl h))
  · exact .inl h

/-- **C97, what holds.** At the end of every run, aborted or not, the printed report lists the names of all tests discovered,
each exactly once, less those which ended with an error. Missing: these too should be listed, `C60_lost_refuted`. -/
theorem C97_run_partial {sel : T → Bool} {Exec : T → Option Status → Prop} (hr : Ran Exec) {tests : List T} {n : Nat}
    {es : List (Event T)} {s : State T} (h : Steps sel Exec (init n tests) es s) (hf : Finished s)
    {r : Results T} (hc : collectResults sel s.reports s.queue = .ok r)
    {pct : Nat → Nat → Str} {name : T → Str} (hp : ∀ a b, '\n' ∉ pct a b) (hn : ∀ t ∈ tests, '\n' ∉ name t) :
    (listedNames (printResults false pct name r) ++ (errors es).map name).Perm (tests.map name) := by
  have hn' : ∀ st, ∀ t ∈ (r st).getD [], '\n' ∉ name t := fun st t ht => hn t (discovered hr h hc st t ht)
  obtain ⟨c1, _, _⟩ := collect_eq sel s.reports s.queue (no_skipped hr h)
  obtain ⟨c1, c2⟩ := c1 r hc
  have e : listedNames (printResults false pct name r) =
      ((allStatuses.map (expected sel s.reports s.queue)).flatten).map name := by
    rw [listedNames, C97_groups hp hn', List.map_map]
    generalize allStatuses = sts
    induction sts with
    | nil => rfl
    | cons st sts ih =>
      have hx := c1 st
      cases hs : r st with
      | none =>
        rw [hs] at hx
        rw [List.filter_cons_of_neg (by simp [hs]), ih]
        simp only [List.map_cons, List.flatten_cons, List.map_append, ← hx]
        rfl
      | some ts =>
        rw [hs] at hx
        rw [List.filter_cons_of_pos (by simp [hs])]
        simp only [List.map_cons, List.flatten_cons, List.map_append, ← hx, ih, Function.comp_apply, hs]
  rw [e]
  have hpl := (inv_steps h).places
  rw [finished_inFlight hf, List.nil_append] at hpl
  rw [← List.map_append]
  refine List.Perm.map _ (List.Perm.trans ?_ hpl)
  rw [← List.append_assoc]
  exact (expected_perm _ _ _).append_right _

/-- **C97.** With `--quiet` the report lists the failures: the tests reported with a status which is one, and only those. -/
theorem C97_quiet {sel : T → Bool} {Exec : T → Option Status → Prop} (hr : Ran Exec) {tests : List T} {n : Nat}
    {es : List (Event T)} {s : State T} (h : Steps sel Exec (init n tests) es s)
    {r : Results T} (hc : collectResults sel s.reports s.queue = .ok r)
    {pct : Nat → Nat → Str} {name : T → Str} (hp : ∀ a b, '\n' ∉ pct a b) (hn : ∀ t ∈ tests, '\n' ∉ name t) (w : Str) :
    w ∈ listedNames (printResults true pct name r) ↔ ∃ t st, (t, st) ∈ s.reports ∧ st.isFailure = true ∧ w = name t := by
  have hn' : ∀ st, ∀ t ∈ (r st).getD [], '\n' ∉ name t := fun st t ht => hn t (discovered hr h hc st t ht)
  obtain ⟨c1, _, _⟩ := collect_eq sel s.reports s.queue (no_skipped hr h)
  obtain ⟨c1, c2⟩ := c1 r hc
  have hfail : ∀ st : Status, st.isFailure = true →
      expected sel s.reports s.queue st = (s.reports.filter (fun x => x.2 = st)).map Prod.fst := by
    intro st hs
    rw [expected, if_neg (by rintro rfl; cases hs), if_neg (by rintro rfl; cases hs), List.append_nil]
  rw [listedNames, C97_groups hp hn', List.map_map, List.mem_flatten]
  constructor
  · rintro ⟨ls, hls, hw⟩
    obtain ⟨st, hst, rfl⟩ := List.mem_map.1 hls
    obtain ⟨t, ht, rfl⟩ := List.mem_map.1 hw
    have hf : st.isFailure = true := by
      have := (List.mem_filter.1 hst).2
      simp only [Bool.not_true, Bool.or_false, Bool.and_eq_true] at this
      exact this.2
    rw [c1 st, hfail st hf] at ht
    obtain ⟨⟨t', st'⟩, hx, rfl⟩ := List.mem_map.1 ht
    rw [List.mem_filter] at hx
    have : st' = st := by simpa using hx.2
    subst this
    exact ⟨t', st', hx.1, hf, rfl⟩
  · rintro ⟨t, st, hm, hf, rfl⟩
    have ht : t ∈ (r st).getD [] := by
      rw [c1 st, hfail st hf]
      exact List.mem_map.2 ⟨(t, st), List.mem_filter.2 ⟨hm, by simp⟩, rfl⟩
    refine ⟨((r st).getD []).map name, List.mem_map.2 ⟨st, List.mem_filter.2 ⟨mem_allStatuses st, ?_⟩, rfl⟩,
      List.mem_map.2 ⟨t, ht, rfl⟩⟩
    have : (r st).isSome = true := by
      cases hs : r st with
      | none => rw [hs] at ht; cases ht
      | some _ => rfl
    simp [this, hf]

/-- **C97.** The report of a run and its exit code agree: if the run was not aborted, the command ends with success iff the report, quiet
or not, has no group for a status which is a failure; whoever reads nothing but the report is not misled. -/
theorem C97_exit {sel : T → Bool} {s : State T} (ha : s.aborted = false)
    {r : Results T} (hc : collectResults sel s.reports s.queue = .ok r)
    {pct : Nat → Nat → Str} {name : T → Str} (hp : ∀ a b, '\n' ∉ pct a b) (hn : ∀ st, ∀ t ∈ (r st).getD [], '\n' ∉ name t) :
    finish sel s = .success ↔ groups (lines (printResults true pct name r)) = [] := by
  rw [C97_groups hp hn, finish, hc]
  dsimp only
  rw [ha, Bool.or_false, List.map_eq_nil_iff, List.filter_eq_nil_iff]
  by_cases hany : allStatuses.any (fun st => (r st).isSome && st.isFailure) = true
  · rw [if_pos hany]
    obtain ⟨st, h1, h2⟩ := List.any_eq_true.1 hany
    refine iff_of_false (by simp) fun hno => hno st h1 ?_
    simpa using h2
  · rw [if_neg hany]
    refine iff_of_true rfl fun st h1 h2 => hany (List.any_eq_true.2 ⟨st, h1, ?_⟩)
    simpa using h2

/-! ## When a test has come to its result -/

/-- **C97.** When a test has come to its result, nothing is printed iff it is not a failure and `--quiet` is given without
`--all`; otherwise the first line says the status and the name. A test which timed out has its time
(`lit/src/utils.rs:104-108`); then nothing panics. -/
theorem C97_live {secs : Seconds} {o : Printing} {name : Str} {r : Outcome} (hn : '\n' ∉ name)
    (he : r.status = .timeout → r.elapsed ≠ none) :
    ∃ text, printTest secs o name r = some text ∧
      (text = [] ↔ r.status.isFailure = false ∧ o.quiet = true ∧ o.all = false) ∧
      (text ≠ [] → (lines text).head? = some (r.status.tag ++ ": ".toList ++ name)) := by
  have hd : ∃ d, r.display secs = some d := by
    simp only [Outcome.display]
    by_cases ht : r.status = .timeout
    · rw [if_pos ht]
      cases hx : r.elapsed with
      | none => exact absurd hx (he ht)
      | some ms => exact ⟨_, rfl⟩
    · rw [if_neg ht]
      cases r.elapsed <;> exact ⟨_, rfl⟩
  obtain ⟨d, hd⟩ := hd
  have htag : '\n' ∉ r.status.tag ++ ": ".toList ++ name := by
    simp only [List.mem_append, not_or]
    exact ⟨⟨by cases r.status <;> decide, by decide⟩, hn⟩
  have hh : ∀ s, (lines (line (r.status.tag ++ ": ".toList ++ name) ++ s)).head? = some (r.status.tag ++ ": ".toList ++ name) := by
    intro s; rw [lines_line htag]; rfl
  have h0 := hh []
  rw [List.append_nil] at h0
  have hne : ∀ a : Str, line a ≠ [] := by intro a; simp [line]
  have hne2 : ∀ a b : Str, line a ++ b ≠ [] := by intro a b; simp [line]
  simp only [printTest, hd, Option.map_some]
  generalize r.status.tag ++ ": ".toList ++ name = head at hh h0 htag ⊢
  cases hf : r.status.isFailure <;> cases hq : o.quiet <;> cases hal : o.all <;> cases hv : o.verbose <;>
    simp [hne, hne2, hh, h0]

/-- **C97.** With `--verbose` or `--all` what a failing test has written is printed: each of its two outputs, if not empty, stands whole
below its title. -/
theorem C97_output {secs : Seconds} {o : Printing} {name : Str} {r : Outcome} (hf : r.status.isFailure = true)
    (hv : o.verbose = true ∨ o.all = true) {text : Str} (h : printTest secs o name r = some text) :
    (r.stdout ≠ [] → ∃ a b, text = a ++ "Command Output (stdout) ----\n".toList ++ r.stdout ++
      "\n----------------------------\n".toList ++ b) ∧
    (r.stderr ≠ [] → ∃ a b, text = a ++ "Command Output (stderr) ----\n".toList ++ r.stderr ++
      "\n----------------------------\n".toList ++ b) := by
  have hcond : (o.all || o.verbose) = true := by rcases hv with h | h <;> simp [h]
  rw [printTest, if_pos hf, if_pos hcond] at h
  obtain ⟨d, hd, rfl⟩ := Option.map_eq_some_iff.1 h
  have hdis : ∃ a, d = a ++ (outputSection "stdout".toList r.stdout ++ outputSection "stderr".toList r.stderr) := by
    simp only [Outcome.display] at hd
    split at hd
    · split at hd
      · cases hd
      · simp only [Option.some.injEq] at hd
        exact ⟨_, hd.symm⟩
    · split at hd
      · simp only [Option.some.injEq] at hd
        exact ⟨_, hd.symm⟩
      · simp only [Option.some.injEq] at hd
        exact ⟨_, hd.symm⟩
  obtain ⟨a, rfl⟩ := hdis
  constructor
  · intro hne
    have e : outputSection "stdout".toList r.stdout = "Command Output (stdout) ----\n".toList ++ r.stdout ++
        "\n----------------------------\n".toList := by
      rw [outputSection, if_neg (by simpa using hne)]
      simp [line]
    exact ⟨line (r.status.tag ++ ": ".toList ++ name) ++ a, outputSection "stderr".toList r.stderr ++ ['\n'], by
      rw [e]; simp only [line, List.append_assoc]⟩
  · intro hne
    have e : outputSection "stderr".toList r.stderr = "Command Output (stderr) ----\n".toList ++ r.stderr ++
        "\n----------------------------\n".toList := by
      rw [outputSection, if_neg (by simpa using hne)]
      simp [line]
    exact ⟨line (r.status.tag ++ ": ".toList ++ name) ++ a ++ outputSection "stdout".toList r.stdout, ['\n'], by
      rw [e]; simp only [line, List.append_assoc]⟩

/-! ## Concrete reports -/

/-- Names for the tests of `exampleSel`. -/
def exampleName (t : Nat) : Str := "s::".toList ++ digits t

/-- What the run of `example_run` prints at its end. -/
theorem example_report : ∃ es s r, Steps exampleSel (fun t o => exampleExec t = o) (init 2 [0, 1, 2]) es s ∧ Finished s ∧
    s.aborted = false ∧ collectResults exampleSel s.reports s.queue = .ok r ∧
    printResults false (fun _ _ => "33.33".toList) exampleName r =
      "******************** Excluded Tests (1):\n  s::1\n\n******************** Passed Tests (1):\n  s::0\n\n******************** Failed Tests (1):\n  s::2\n\n\nTotal Discovered Tests: 3\n  Excluded: 1 (33.33%)\n  Passed  : 1 (33.33%)\n  Failed  : 1 (33.33%)\n".toList ∧
    printResults true (fun _ _ => "33.33".toList) exampleName r =
      "******************** Failed Tests (1):\n  s::2\n\n\nTotal Discovered Tests: 3\n  Excluded: 1 (33.33%)\n  Passed  : 1 (33.33%)\n  Failed  : 1 (33.33%)\n".toList := by
  have h0 : Steps exampleSel (fun t o => exampleExec t = o) (init 2 [0, 1, 2]) [] _ := .refl _
  have h1 := h0.tail (.take 0 0 [1, 2] rfl rfl)
  have h2 := h1.tail (.take 1 1 [2] rfl rfl)
  have h3 := h2.tail (.exclude 1 1 rfl)
  have h4 := h3.tail (.take 1 2 [] rfl rfl)
  have h5 := h4.tail (.run 0 0 .pass rfl rfl)
  have h6 := h5.tail (.stop 0 rfl (Or.inl rfl))
  have h7 := h6.tail (.run 1 2 .fail rfl rfl)
  have h8 := h7.tail (.stop 1 rfl (Or.inl rfl))
  exact ⟨_, _, _, h8, by simp [Finished, init], rfl, rfl, by decide +kernel, by decide +kernel⟩

/-- The theorems about reports apply to that run. -/
example : ∃ (s : State Nat) (r : Results Nat), collectResults exampleSel s.reports s.queue = .ok r ∧
    (listedNames (printResults false (fun _ _ => "33.33".toList) exampleName r)).Perm (["s::0".toList, "s::1".toList, "s::2".toList]) ∧
    finish exampleSel s ≠ .success := by
  obtain ⟨es, s, r, h, hf, ha, hc, _, _⟩ := example_report
  have hp : ∀ a b : Nat, '\n' ∉ (fun _ _ => "33.33".toList : Nat → Nat → Str) a b := by
    intro _ _; show '\n' ∉ "33.33".toList; decide
  have hn : ∀ t : Nat, '\n' ∉ exampleName t := by
    intro t
    simp only [exampleName, List.mem_append, not_or]
    exact ⟨by decide, digits_no (by decide)⟩
  have := C97_run_partial example_ran h hf hc (name := exampleName) hp fun t _ => hn t
  have he : errors es = [] := by
    by_contra hne
    rw [(inv_steps h).aborted.2 hne] at ha; cases ha
  rw [he, List.map_nil, List.append_nil] at this
  refine ⟨s, r, hc, this, ?_⟩
  intro hs
  have := (C97_exit ha hc (name := exampleName) hp fun _ t _ => hn t).1 hs
  have hq := (C97_quiet example_ran h hc (name := exampleName) hp (fun t _ => hn t) "s::2".toList).2
    ⟨2, .fail, ?_, rfl, by decide⟩
  · rw [listedNames, this] at hq
    cases hq
  · have hr : ∃ st, (2, st) ∈ s.reports := by
      have := (C48_once (by decide) h hf ha).1.symm.subset (show 2 ∈ [0, 1, 2] by decide)
      obtain ⟨⟨t, st⟩, hx, rfl⟩ := List.mem_map.1 this
      exact ⟨st, hx⟩
    obtain ⟨st, hst⟩ := hr
    rcases (C48_once (by decide) h hf ha).2 2 st hst with ⟨_, h2⟩ | ⟨h1, _⟩
    · simp only [exampleExec] at h2
      cases h2
      exact hst
    · cases h1

/-- A test which ends with an error is in no report: two tests discovered, one listed. -/
theorem C97_lost_refuted : ∃ es s r, Steps exampleSel (fun t o => exampleExec t = o) (init 1 [0, 7]) es s ∧ Finished s ∧
    collectResults exampleSel s.reports s.queue = .ok r ∧
    listedNames (printResults false (fun _ _ => "100.00".toList) exampleName r) = ["s::0".toList] := by
  have h0 : Steps exampleSel (fun t o => exampleExec t = o) (init 1 [0, 7]) [] _ := .refl _
  have h1 := h0.tail (.take 0 0 [7] rfl rfl)
  have h2 := h1.tail (.run 0 0 .pass rfl rfl)
  have h3 := h2.tail (.take 0 7 [] rfl rfl)
  have h4 := h3.tail (.error 0 7 rfl rfl)
  exact ⟨_, _, _, h4, by simp [Finished, init], rfl, by decide +kernel⟩

/-- What is printed for a failing test with `--verbose`. -/
example : printTest (fun _ => []) ⟨false, true, true⟩ "s::a".toList ⟨.fail, some 3, some 12, "hello".toList, []⟩ = some
    "FAIL: s::a\nExit Code: 3\nElapsed: 12ms\nCommand Output (stdout) ----\nhello\n----------------------------\n\n".toList := by
  decide +kernel

end Runner
end Litcheck
