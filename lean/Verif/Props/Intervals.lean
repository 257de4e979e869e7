import Verif.Lemmas.Intervals
/-
C27, C28: page row intervals and page pruning with the offset index.
-/
namespace Pq.Props
open Spec Deser

/-- **C27**: a legal offset index gives one interval per page, starting at the page's first row;
together they are, in order and without overlap, all the rows from the first page's first row to the
last row. An illegal one gives an error. -/
theorem C27_partition (ls : List Thrift.PageLocation) (n : Nat) :
    (LegalRows n (ls.map (·.firstRowIndex.toInt)) →
      ∃ ivs, computePageRowIntervals ls n = .ok ivs ∧
        ivs.map (fun iv => (iv.start : Int)) = ls.map (·.firstRowIndex.toInt) ∧
        ∀ iv ∈ ivs.head?, ivs.flatMap rowsOf = List.range' iv.start (n - iv.start)) ∧
    (¬ LegalRows n (ls.map (·.firstRowIndex.toInt)) → computePageRowIntervals ls n = .err .oos) := by
  obtain ⟨h1, h2⟩ := cpri_spec ls n
  refine ⟨fun h => ?_, h2⟩
  obtain ⟨ivs, e1, e2, e3⟩ := h1 h
  exact ⟨ivs, e1, e2, fun iv hiv => (consecutive_rows _ _ _ (e3 iv hiv)).2⟩

/-- An offset index of three pages. -/
def exampleLocations : List Thrift.PageLocation :=
  [⟨4#64, 10#32, 0#64⟩, ⟨14#64, 20#32, 3#64⟩, ⟨34#64, 5#32, 8#64⟩]

example : LegalRows 10 (exampleLocations.map (·.firstRowIndex.toInt)) := by decide
example : ¬ LegalRows 7 (exampleLocations.map (·.firstRowIndex.toInt)) := by decide
example : computePageRowIntervals exampleLocations 10 = .ok [⟨0, 3⟩, ⟨3, 5⟩, ⟨8, 2⟩] := by decide

/-- **C28** (one page): for any selected intervals (overlapping or not, in any order), the rows
selected in a page are exactly the selected rows of the row group that are in the page, with the same
multiplicity and order. The selection fits the page and is sorted when the input is. -/
theorem C28_page (ck : Bool) (ivs : List Interval) (ls : List Thrift.PageLocation) (n : Nat)
    (hn : n < 2 ^ 64) (hl : LegalRows n (ls.map (·.firstRowIndex.toInt)))
    (ho : ∀ l ∈ ls, 0 ≤ l.offset.toInt ∧ 0 ≤ l.compressedPageSize.toInt)
    (hiv : ∀ iv ∈ ivs, iv.start + iv.length < 2 ^ 64) :
    ∃ pages spans, selectPages ck ivs ls n = .ok pages ∧
      computePageRowIntervals ls n = .ok spans ∧ pages.length = ls.length ∧
      spans.length = ls.length ∧
      ∀ (k : Nat) (loc : Thrift.PageLocation) (page : FilteredPage) (span : Interval),
        ls[k]? = some loc → pages[k]? = some page → spans[k]? = some span →
        (page.start : Int) = loc.offset.toInt ∧
        (page.length : Int) = loc.compressedPageSize.toInt ∧
        page.numRows = span.length ∧
        Within page.numRows page.selectedRows ∧
        (SortedFrom 0 ivs → SortedFrom 0 page.selectedRows) ∧
        (0 < page.numRows → (∀ iv ∈ ivs, 0 < iv.length) → ∀ x ∈ page.selectedRows, 0 < x.length) ∧
        (page.selectedRows.flatMap fun x => (rowsOf x).map (span.start + ·))
          = (ivs.flatMap rowsOf).filter
              (fun r => decide (span.start ≤ r ∧ r < span.start + span.length)) := by
  obtain ⟨spans, e1, e2, e3⟩ := (cpri_spec ls n).1 hl
  have hlen : spans.length = ls.length := by
    have := congrArg List.length e2; simpa using this
  have hb : ∀ s ∈ spans, s.start + s.length ≤ n := by
    cases spans with
    | nil => simp
    | cons s ss =>
      have h := e3 s (by simp)
      have key : ∀ (q : List Interval) a, Consecutive a n q → ∀ x ∈ q, x.start + x.length ≤ n := by
        intro q
        induction q with
        | nil => simp
        | cons y ys ih =>
          intro a ⟨h1, h2⟩ x hx
          rcases List.mem_cons.1 hx with rfl | hx
          · have := (consecutive_rows _ _ _ h2).1; omega
          · exact ih _ h2 x hx
      exact key _ _ h
  have hsel : ∀ x ∈ spans.zip ls, ∃ page, selectPage ck ivs x = .ok page ∧
        (page.start : Int) = x.2.offset.toInt ∧
        (page.length : Int) = x.2.compressedPageSize.toInt ∧
        page.numRows = x.1.length ∧
        Within page.numRows page.selectedRows ∧
        (SortedFrom 0 ivs → SortedFrom 0 page.selectedRows) ∧
        (0 < page.numRows → (∀ iv ∈ ivs, 0 < iv.length) → ∀ y ∈ page.selectedRows, 0 < y.length) ∧
        (page.selectedRows.flatMap fun y => (rowsOf y).map (x.1.start + ·))
          = (ivs.flatMap rowsOf).filter
              (fun r => decide (x.1.start ≤ r ∧ r < x.1.start + x.1.length)) := by
    rintro ⟨s, l⟩ hx
    have hs := hb s (List.of_mem_zip hx).1
    have hlo := ho l (List.of_mem_zip hx).2
    obtain ⟨xs, h1, h2, h3, h4, h5⟩ := isIn_spec ck s (by omega) ivs hiv
    refine ⟨⟨l.offset.toInt.toNat, l.compressedPageSize.toInt.toNat, xs, s.length⟩, ?_, ?_, ?_, rfl,
      h2, ?_, h4, h5⟩
    · simp [selectPage, h1, toUsize_ok _ hlo.1, toUsize_ok _ hlo.2]
    · simp only; omega
    · simp only; omega
    · intro h; have := h3 0 h; simpa using this
  have : Nonempty FilteredPage := ⟨⟨0, 0, [], 0⟩⟩
  choose! g hg using hsel
  refine ⟨(spans.zip ls).map g, spans, ?_, e1, by simp [hlen], hlen, ?_⟩
  · simp only [selectPages, e1, Res.ok_bind]
    exact collectRes_map _ g _ fun x hx => (hg x hx).1
  · intro k loc page span hk1 hk2 hk3
    have hz : (spans.zip ls)[k]? = some (span, loc) := by
      rw [List.getElem?_zip_eq_some]; exact ⟨hk3, hk1⟩
    rw [List.getElem?_map, hz] at hk2
    simp only [Option.map_some, Option.some.injEq] at hk2
    subst hk2
    exact (hg _ (List.mem_of_getElem? hz)).2

example : LegalRows 10 (exampleLocations.map (·.firstRowIndex.toInt)) ∧
    (∀ l ∈ exampleLocations, 0 ≤ l.offset.toInt ∧ 0 ≤ l.compressedPageSize.toInt) ∧
    (∀ iv ∈ [Interval.mk 2 4, Interval.mk 9 1], iv.start + iv.length < 2 ^ 64) := by decide
example : selectPages true [⟨2, 4⟩, ⟨9, 1⟩] exampleLocations 10
    = .ok [⟨4, 10, [⟨2, 1⟩], 3⟩, ⟨14, 20, [⟨0, 3⟩], 5⟩, ⟨34, 5, [⟨1, 1⟩], 2⟩] := by decide

/-- **C28** (whole column): reading from each page of a column exactly the rows selected for that
page gives exactly the rows of the selected intervals of the column, in order. -/
theorem C28_column {α : Type} (ck : Bool) (ivs : List Interval) (ls : List Thrift.PageLocation)
    (rows : List α) (contents : List (List α)) (hn : rows.length < 2 ^ 64)
    (hl : LegalRows rows.length (ls.map (·.firstRowIndex.toInt)))
    (h0 : ∀ l ∈ ls.head?, l.firstRowIndex = 0)
    (hne : ls ≠ [])
    (ho : ∀ l ∈ ls, 0 ≤ l.offset.toInt ∧ 0 ≤ l.compressedPageSize.toInt)
    (hs : SortedFrom 0 ivs) (hw : Within rows.length ivs)
    (hc : contents.flatten = rows) :
    ∃ pages, selectPages ck ivs ls rows.length = .ok pages ∧
      (contents.map List.length = pages.map (·.numRows) →
        (List.zipWith (fun p c => selectRows p.selectedRows c) pages contents).flatten
          = selectRows ivs rows) := by
  obtain ⟨pages, spans, e1, e2, l1, l2, hp⟩ := C28_page ck ivs ls rows.length hn hl ho
    (fun iv hiv => by have := hw iv hiv; omega)
  obtain ⟨spans', e2', e3, e4⟩ := (cpri_spec ls rows.length).1 hl
  rw [e2] at e2'
  cases e2'
  refine ⟨pages, e1, fun hlen => ?_⟩
  -- the first page starts at row 0
  have hcons : Consecutive 0 rows.length spans := by
    cases hls : ls with
    | nil => exact absurd hls hne
    | cons l ls' =>
      cases spans with
      | nil => simp [hls] at l2
      | cons s ss =>
        have hco := e4 s (by simp)
        have h1 : l.firstRowIndex = 0 := h0 l (by simp [hls])
        rw [hls] at e3
        simp only [List.map_cons, List.cons.injEq, h1] at e3
        have : s.start = 0 := by have := e3.1; simp at this; omega
        rw [this] at hco
        exact hco
  by_cases hin : Nonempty α
  swap
  · have hr : rows = [] := by
      cases rows with
      | nil => rfl
      | cons a _ => exact absurd ⟨a⟩ hin
    have hz : ∀ (xs : List α), xs = [] := by
      intro xs
      cases xs with
      | nil => rfl
      | cons a _ => exact absurd ⟨a⟩ hin
    rw [hz (selectRows ivs rows), hz (List.flatten _)]
  · obtain ⟨a0⟩ := hin
    letI : Inhabited α := ⟨a0⟩
    rw [selectRows_eq_map rows ivs hw]
    have hL := sorted_rows ivs 0 hs
    have hall : (ivs.flatMap rowsOf).filter (fun r => decide (0 ≤ r ∧ r < rows.length))
        = ivs.flatMap rowsOf := by
      rw [List.filter_eq_self]
      intro r hr
      rw [List.mem_flatMap] at hr
      obtain ⟨iv, hiv, hr⟩ := hr
      have := hw iv hiv
      unfold rowsOf at hr
      rw [List.mem_range'_1] at hr
      simp; omega
    rw [← hall, ← filter_pages _ hL.1 spans 0 rows.length hcons, List.map_flatMap]
    -- page by page
    have key : ∀ (sp : List Interval) (pg : List FilteredPage) (ct : List (List α)) (a : Nat),
        Consecutive a rows.length sp → ct.flatten = rows.drop a →
        ct.map List.length = pg.map (·.numRows) → pg.length = sp.length →
        (∀ (k : Nat) (page : FilteredPage) (span : Interval), pg[k]? = some page → sp[k]? = some span →
          page.numRows = span.length ∧ Within page.numRows page.selectedRows ∧
          (page.selectedRows.flatMap fun x => (rowsOf x).map (span.start + ·))
            = (ivs.flatMap rowsOf).filter
              (fun r => decide (span.start ≤ r ∧ r < span.start + span.length))) →
        (List.zipWith (fun p c => selectRows p.selectedRows c) pg ct).flatten
          = sp.flatMap fun p => ((ivs.flatMap rowsOf).filter
              (fun r => decide (p.start ≤ r ∧ r < p.start + p.length))).map fun r => rows[r]! := by
      intro sp
      induction sp with
      | nil =>
        intro pg ct a _ _ _ hl2 _
        have : pg = [] := List.length_eq_zero_iff.1 (by simpa using hl2)
        subst this; rfl
      | cons s sp ih =>
        intro pg ct a hco hfl hct hl2 hpg
        cases pg with
        | nil => simp at hl2
        | cons p pg =>
          cases ct with
          | nil => simp at hct
          | cons c ct =>
            obtain ⟨hs1, hs2⟩ := hco
            simp only [List.map_cons, List.cons.injEq] at hct
            obtain ⟨hp1, hp2, hp3⟩ := hpg 0 p s rfl rfl
            rw [List.zipWith_cons_cons, List.flatten_cons, List.flatMap_cons]
            rw [List.flatten_cons] at hfl
            have hcl : c.length = s.length := by rw [hct.1, hp1]
            have hct2 : ct.flatten = rows.drop (a + s.length) := by
              rw [← List.drop_drop, ← hfl, ← hcl, List.drop_left]
            rw [ih pg ct (a + s.length) hs2 hct2 hct.2 (by simpa using hl2)
              (fun k page span h1 h2 => hpg (k + 1) page span h1 h2)]
            congr 1
            rw [selectRows_eq_map c p.selectedRows (by rw [hct.1]; exact hp2), ← hp3,
              List.map_flatMap, List.map_flatMap]
            apply List.flatMap_congr
            intro x hx
            rw [List.map_map]
            apply List.map_congr_left
            intro r hr
            have hxw := hp2 x hx
            unfold rowsOf at hr
            rw [List.mem_range'_1] at hr
            have hrc : r < c.length := by omega
            have hle := (consecutive_rows _ _ _ hs2).1
            have : rows[a + r]? = c[r]? := by
              rw [← List.getElem?_drop, ← hfl, List.getElem?_append_left hrc]
            simp only [Function.comp_apply, hs1]
            rw [getElem!_def, getElem!_def, this]
    apply key spans pages contents 0 hcons (by simpa using hc) hlen (by omega)
    intro k page span h1 h2
    have hk : k < ls.length := by
      have := (List.getElem?_eq_some_iff.1 h1).1; omega
    obtain ⟨_, _, h3, h4, _, _, h5⟩ := hp k ls[k] page span (List.getElem?_eq_getElem hk) h1 h2
    exact ⟨h3, h4, h5⟩

example : let rows := List.range 10
    LegalRows rows.length (exampleLocations.map (·.firstRowIndex.toInt)) ∧
    (∀ l ∈ exampleLocations.head?, l.firstRowIndex = 0) ∧
    SortedFrom 0 [⟨2, 4⟩, ⟨9, 1⟩] ∧ Within rows.length [⟨2, 4⟩, ⟨9, 1⟩] ∧
    [[0, 1, 2], [3, 4, 5, 6, 7], [8, 9]].flatten = rows := by
  refine ⟨by decide, by decide, by decide, ?_, by decide⟩
  intro iv h
  simp at h
  rcases h with rfl | rfl <;> decide

/-- **C28** (errors): a negative offset or size in the index is an error. -/
theorem C28_bad_location (ck : Bool) (ivs : List Interval) (ls : List Thrift.PageLocation) (n : Nat)
    (hn : n < 2 ^ 64) (hiv : ∀ iv ∈ ivs, iv.start + iv.length < 2 ^ 64)
    (hbad : ¬ LegalRows n (ls.map (·.firstRowIndex.toInt)) ∨
      ∃ l ∈ ls, l.offset.toInt < 0 ∨ l.compressedPageSize.toInt < 0) :
    selectPages ck ivs ls n = .err .oos := by
  by_cases hl : LegalRows n (ls.map (·.firstRowIndex.toInt))
  swap
  · simp [selectPages, (cpri_spec ls n).2 hl]
  · obtain ⟨spans, e1, e2, e3⟩ := (cpri_spec ls n).1 hl
    have hbad : ∃ l ∈ ls, l.offset.toInt < 0 ∨ l.compressedPageSize.toInt < 0 := by
      rcases hbad with h | h
      · exact absurd hl h
      · exact h
    have hlen : spans.length = ls.length := by
      have := congrArg List.length e2; simpa using this
    have hb : ∀ s ∈ spans, s.start + s.length ≤ n := by
      cases spans with
      | nil => simp
      | cons s ss =>
        have h := e3 s (by simp)
        have key : ∀ (q : List Interval) a, Consecutive a n q → ∀ x ∈ q, x.start + x.length ≤ n := by
          intro q
          induction q with
          | nil => simp
          | cons y ys ih =>
            intro a ⟨h1, h2⟩ x hx
            rcases List.mem_cons.1 hx with rfl | hx
            · have := (consecutive_rows _ _ _ h2).1; omega
            · exact ih _ h2 x hx
        exact key _ _ h
    have hcase : ∀ x ∈ spans.zip ls, if x.2.offset.toInt < 0 ∨ x.2.compressedPageSize.toInt < 0
        then selectPage ck ivs x = .err .oos else ∃ a, selectPage ck ivs x = .ok a := by
      rintro ⟨s, l⟩ hx
      have hs := hb s (List.of_mem_zip hx).1
      obtain ⟨xs, h1, _⟩ := isIn_spec ck s (by omega) ivs hiv
      simp only [selectPage, h1, Res.ok_bind]
      by_cases ho : l.offset.toInt < 0
      · rw [if_pos (Or.inl ho), toUsize_err _ (by omega)]; rfl
      · rw [toUsize_ok _ (by omega)]
        by_cases hc : l.compressedPageSize.toInt < 0
        · rw [if_pos (Or.inr hc)]
          simp only [Res.ok_bind]
          rw [toUsize_err _ (by omega)]; rfl
        · rw [if_neg (by omega)]
          simp only [Res.ok_bind]
          rw [toUsize_ok _ (by omega)]
          exact ⟨_, rfl⟩
    simp only [selectPages, e1, Res.ok_bind]
    apply collectRes_err
    · intro x hx
      rw [List.mem_map] at hx
      obtain ⟨y, hy, rfl⟩ := hx
      have := hcase y hy
      split at this
      · exact Or.inl this
      · exact Or.inr this
    · obtain ⟨l, hlm, hneg⟩ := hbad
      obtain ⟨k, hk, rfl⟩ := List.getElem_of_mem hlm
      have hz : (spans[k]'(by omega), ls[k]) ∈ spans.zip ls := by
        apply List.mem_of_getElem? (i := k)
        rw [List.getElem?_zip_eq_some]
        exact ⟨List.getElem?_eq_getElem _, List.getElem?_eq_getElem _⟩
      refine ⟨_, List.mem_map.2 ⟨_, hz, rfl⟩, ?_⟩
      have := hcase _ hz
      rw [if_pos hneg] at this
      exact this

example : selectPages true [⟨0, 2⟩] [⟨4#64, -1#32, 0#64⟩] 2 = .err .oos := by decide

/-- **C28** (`compute_rows`): the rows of the selected pages, as sorted intervals. -/
theorem C28_compute_rows (selected : List Bool) (ls : List Thrift.PageLocation) (n : Nat)
    (hl : LegalRows n (ls.map (·.firstRowIndex.toInt))) :
    ∃ spans out, computePageRowIntervals ls n = .ok spans ∧ computeRows selected ls n = .ok out ∧
      SortedFrom 0 out ∧ Within n out ∧
      ∀ r, r ∈ out.flatMap rowsOf ↔
        ∃ (k : Nat) (span : Interval), selected[k]? = some true ∧ spans[k]? = some span ∧ r ∈ rowsOf span := by
  obtain ⟨spans, e1, e2, e3⟩ := (cpri_spec ls n).1 hl
  refine ⟨spans, (selected.zip spans).filterMap fun x => if x.1 then some x.2 else none, e1,
    by simp only [computeRows, e1, Res.ok_bind], ?_⟩
  have key : ∀ (sp : List Interval) (sel : List Bool) a, Consecutive a n sp →
      SortedFrom a ((sel.zip sp).filterMap fun x => if x.1 then some x.2 else none) ∧
      Within n ((sel.zip sp).filterMap fun x => if x.1 then some x.2 else none) := by
    have weaken : ∀ q c c', c' ≤ c → SortedFrom c q → SortedFrom c' q := by
      intro q c c' hc hs
      cases q with
      | nil => trivial
      | cons y ys => exact ⟨by have := hs.1; omega, hs.2⟩
    intro sp
    induction sp with
    | nil => intro sel a _; simp [SortedFrom, Within]
    | cons s sp ih =>
      intro sel a ⟨h1, h2⟩
      cases sel with
      | nil => simp [SortedFrom, Within]
      | cons b sel =>
        obtain ⟨h3, h4⟩ := ih sel _ h2
        have hle := (consecutive_rows _ _ _ h2).1
        cases b with
        | false =>
          simp only [List.zip_cons_cons, List.filterMap_cons, Bool.false_eq_true, if_false]
          exact ⟨weaken _ _ _ (by omega) h3, h4⟩
        | true =>
          simp only [List.zip_cons_cons, List.filterMap_cons, if_true]
          refine ⟨⟨by omega, ?_⟩, ?_⟩
          · rw [h1]; exact h3
          · intro x hx
            rcases List.mem_cons.1 hx with rfl | hx
            · omega
            · exact h4 x hx
  refine ⟨?_, ?_, ?_⟩
  · cases spans with
    | nil => simp [SortedFrom]
    | cons s ss =>
      have := (key _ selected _ (e3 s (by simp))).1
      revert this
      generalize (List.filterMap _ _ : List Interval) = q
      intro h
      cases q with
      | nil => trivial
      | cons y ys => exact ⟨by omega, h.2⟩
  · cases spans with
    | nil => simp [Within]
    | cons s ss => exact (key _ selected _ (e3 s (by simp))).2
  · intro r
    simp only [List.mem_flatMap, List.mem_filterMap]
    constructor
    · rintro ⟨iv, ⟨⟨b, s⟩, hz, hb⟩, hr⟩
      obtain ⟨k, hk, hkz⟩ := List.getElem_of_mem hz
      have hkz : (selected.zip spans)[k]? = some (b, s) := by
        rw [List.getElem?_eq_getElem hk, hkz]
      rw [List.getElem?_zip_eq_some] at hkz
      cases b with
      | false => simp at hb
      | true =>
        simp only [if_true, Option.some.injEq] at hb
        subst hb
        exact ⟨k, s, hkz.1, hkz.2, hr⟩
    · rintro ⟨k, s, h1, h2, hr⟩
      refine ⟨s, ⟨(true, s), ?_, rfl⟩, hr⟩
      apply List.mem_of_getElem? (i := k)
      rw [List.getElem?_zip_eq_some]
      exact ⟨h1, h2⟩

example : computeRows [true, false, true] exampleLocations 10 = .ok [⟨0, 3⟩, ⟨8, 2⟩] := by decide

/-- Page pruning feeds C21's defect: from non-empty selected rows, an empty page strictly inside a
selection is given an empty interval. -/
theorem C28_empty_interval :
    selectPages true [⟨0, 4⟩] [⟨4#64, 9#32, 0#64⟩, ⟨13#64, 9#32, 2#64⟩, ⟨22#64, 9#32, 2#64⟩] 4
      = .ok [⟨4, 9, [⟨0, 2⟩], 2⟩, ⟨13, 9, [⟨0, 0⟩], 0⟩, ⟨22, 9, [⟨0, 2⟩], 2⟩] := by decide

end Pq.Props
