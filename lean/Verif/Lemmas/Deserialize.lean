import Verif.Spec.Deserialize
import Verif.Lemmas.HybridRle2
/- Helper lemmas about `deserialize`. -/
namespace Pq.Deser
open Pq.Spec

theorem usub_ok (ck : Bool) (a b : Nat) (h : b ≤ a) : usub ck a b = .ok (a - b) := by
  simp [usub, h]

theorem yields_list {α : Type} (xs : List α) : Yields listNext xs xs := by
  induction xs with
  | nil => exact .done rfl
  | cons a as ih => exact .item rfl ih

/-! ### optional values -/

theorem assemble_append {α : Type} (a b : List Bool) (vs : List α) :
    assemble (a ++ b) vs = assemble a vs ++ assemble b (vs.drop (a.count true)) := by
  induction a generalizing vs with
  | nil => simp [assemble]
  | cons x a ih =>
    cases x with
    | false => simp [assemble, ih]
    | true => cases vs <;> simp [assemble, ih]

theorem assemble_length {α : Type} (a : List Bool) (vs : List α) :
    (assemble a vs).length = a.length := by
  induction a generalizing vs with
  | nil => rfl
  | cons x a ih => cases x <;> [skip; cases vs] <;> simp [assemble, ih]

theorem assemble_isSome {α : Type} (xs : List (Option α)) :
    assemble (xs.map Option.isSome) (xs.filterMap id) = xs := by
  induction xs with
  | nil => rfl
  | cons x xs ih => cases x <;> simp [assemble, ih]

theorem yields_optional {σ τ α : Type} {vn : σ → Res (Option Bool × σ)}
    {tn : τ → Res (Option α × τ)} {s : σ} {bs : List Bool} (hv : Yields vn s bs) :
    ∀ {t : τ} {vs : List α}, Yields tn t vs → bs.count true ≤ vs.length →
      Yields (optionalNext vn tn) (s, t) (assemble bs vs) := by
  induction hv with
  | done h =>
    intro t vs _ _
    exact .done (by simp only [optionalNext, h]; rfl)
  | @item s s' b bs h _ ih =>
    intro t vs ht hc
    cases b with
    | false =>
      refine .item (s' := (s', t)) ?_ (ih ht (by simpa using hc))
      simp [optionalNext, h]
    | true =>
      cases ht with
      | done => simp at hc
      | @item _ t' a as h2 h3 =>
        refine .item (s' := (s', t')) ?_ (ih h3 (by simpa using hc))
        simp [optionalNext, h, h2]

/-! ### `SliceFilteredIter` -/

theorem nth_yields {σ α : Type} {next : σ → Res (Option α × σ)} {s : σ} {xs : List α}
    (h : Yields next s xs) : ∀ k (hk : k < xs.length),
    ∃ s', nth next k s = .ok (some xs[k], s') ∧ Yields next s' (xs.drop (k + 1)) := by
  induction h with
  | done => intro k hk; simp at hk
  | @item s s' a xs h1 h2 ih =>
    intro k hk
    cases k with
    | zero => exact ⟨s', by simp [nth, h1], by simpa using h2⟩
    | succ k =>
      obtain ⟨s'', e1, e2⟩ := ih k (by simpa using hk)
      exact ⟨s'', by simp [nth, h1, e1], by simpa using e2⟩

/-- Rows in the intervals, of a column whose first row has number `pos`. -/
def selectFrom {α : Type} (pos : Nat) (ivs : List Interval) (rows : List α) : List α :=
  ivs.flatMap fun iv => (rows.drop (iv.start - pos)).take iv.length

theorem selectFrom_zero {α : Type} (ivs : List Interval) (rows : List α) :
    selectFrom 0 ivs rows = selectRows ivs rows := rfl

theorem selectFrom_skip {α : Type} (pos : Nat) (ivs : List Interval) (X Y : List α)
    (h : ∀ iv ∈ ivs, pos + X.length ≤ iv.start) :
    selectFrom pos ivs (X ++ Y) = selectFrom (pos + X.length) ivs Y := by
  induction ivs with
  | nil => rfl
  | cons iv ivs ih =>
    have h1 := h iv (by simp)
    simp only [selectFrom, List.flatMap_cons] at ih ⊢
    rw [ih (fun v hv => h v (by simp [hv]))]
    congr 2
    rw [List.drop_append, List.drop_eq_nil_of_le (by omega), List.nil_append]
    congr 1; omega

theorem sortedFrom_mono {p q : Nat} {ivs : List Interval} (h : SortedFrom p ivs) (hq : q ≤ p) :
    SortedFrom q ivs := by
  cases ivs with
  | nil => trivial
  | cons iv ivs => exact ⟨Nat.le_trans hq h.1, h.2⟩

theorem sortedFrom_le {p : Nat} {ivs : List Interval} (h : SortedFrom p ivs) :
    ∀ iv ∈ ivs, p ≤ iv.start := by
  induction ivs generalizing p with
  | nil => simp
  | cons v ivs ih =>
    intro iv hiv
    rcases List.mem_cons.1 hiv with rfl | hiv
    · exact h.1
    · have h1 := ih h.2 iv hiv
      have h2 := h.1
      omega

theorem selectFrom_head {α : Type} (pos : Nat) (iv : Interval) (ivs : List Interval) (X Y : List α)
    (hs : iv.start = pos) (hl : iv.length = X.length) (h : SortedFrom (pos + X.length) ivs) :
    selectFrom pos (iv :: ivs) (X ++ Y) = X ++ selectFrom (pos + X.length) ivs Y := by
  have := selectFrom_skip pos ivs X Y (sortedFrom_le h)
  simp only [selectFrom, List.flatMap_cons] at this ⊢
  rw [this, hs, hl]
  simp

theorem selectFrom_part {α : Type} (pos : Nat) (iv : Interval) (ivs : List Interval) (X Y : List α)
    (hs : iv.start = pos) (hl : X.length ≤ iv.length) (h : SortedFrom (iv.start + iv.length) ivs) :
    selectFrom pos (iv :: ivs) (X ++ Y) =
      X ++ selectFrom (pos + X.length) ({ start := iv.start + X.length, length := iv.length - X.length } :: ivs) Y := by
  have := selectFrom_skip pos ivs X Y (sortedFrom_le (sortedFrom_mono h (by omega)))
  simp only [selectFrom, List.flatMap_cons] at this ⊢
  rw [this, hs]
  simp only [Nat.sub_self, List.drop_zero, List.take_append, ← List.append_assoc]
  congr 2
  rw [List.take_of_length_le hl]

theorem within_tail {n : Nat} {iv : Interval} {ivs : List Interval} (h : Within n (iv :: ivs)) :
    Within n ivs := fun v hv => h v (by simp [hv])

theorem selectFrom_cons {α : Type} (pos : Nat) (iv : Interval) (ivs : List Interval) (xs : List α) :
    selectFrom pos (iv :: ivs) xs = (xs.drop (iv.start - pos)).take iv.length ++ selectFrom pos ivs xs := rfl

theorem selectFrom_drop {α : Type} (pos k : Nat) (ivs : List Interval) (xs : List α)
    (hk : k ≤ xs.length) (h : ∀ iv ∈ ivs, pos + k ≤ iv.start) :
    selectFrom pos ivs xs = selectFrom (pos + k) ivs (xs.drop k) := by
  have := selectFrom_skip pos ivs (xs.take k) (xs.drop k) (by
    intro iv hiv; rw [List.length_take, Nat.min_eq_left hk]; exact h iv hiv)
  rwa [List.take_append_drop, List.length_take, Nat.min_eq_left hk] at this

/-- The filtered iterator, in any state: `currentRemaining` rows of the current interval, then the
other intervals, whose rows are counted from `current - currentRemaining`. -/
theorem sliceIter_yields {σ α : Type} (ck : Bool) {next : σ → Res (Option α × σ)} :
    ∀ (total : Nat) (s : σ) (xs : List α) (ivs : List Interval) (r current : Nat),
      Yields next s xs → total = r + (ivs.map (·.length)).sum → r ≤ xs.length → r ≤ current →
      SortedFrom current ivs → Within (current - r + xs.length) ivs → (∀ iv ∈ ivs, 0 < iv.length) →
      Yields (SliceIter.next ck next)
        { iter := s, selectedRows := ivs, currentRemaining := r, current, totalLength := total }
        (xs.take r ++ selectFrom (current - r) ivs xs) := by
  intro total
  induction total with
  | zero =>
    intro s xs ivs r current hy ht hr hrc hs hw hp
    have hr0 : r = 0 := by omega
    subst hr0
    cases ivs with
    | nil => exact .done (by simp [SliceIter.next]; rfl)
    | cons iv ivs =>
      have := hp iv (by simp)
      simp only [List.map_cons, List.sum_cons] at ht; omega
  | succ total ih =>
    intro s xs ivs r current hy ht hr hrc hs hw hp
    by_cases hr0 : r = 0
    · subst hr0
      cases ivs with
      | nil => simp at ht
      | cons iv ivs =>
        have hlen := hp iv (by simp)
        have hend := hw iv (by simp)
        have hst := hs.1
        simp only [List.map_cons, List.sum_cons] at ht
        have hk : iv.start - current < xs.length := by omega
        obtain ⟨s', e1, e2⟩ := nth_yields hy _ hk
        have := ih s' (xs.drop (iv.start - current + 1)) ivs (iv.length - 1) (iv.start + iv.length) e2
          (by omega) (by rw [List.length_drop]; omega) (by omega) hs.2
          (by intro v hv
              have h1 := hw v (by simp [hv])
              rw [List.length_drop]; omega)
          (fun v hv => hp v (by simp [hv]))
        have hsel := selectFrom_drop (current - 0) (iv.start - current + 1) ivs xs (by omega) (by
          intro v hv
          have := sortedFrom_le hs.2 v hv
          omega)
        rw [selectFrom_cons, List.take_zero, List.nil_append, hsel]
        have hd : xs.drop (iv.start - current) = xs[iv.start - current] :: xs.drop (iv.start - current + 1) :=
          (List.getElem_cons_drop ..).symm
        rw [Nat.sub_zero, hd]
        obtain ⟨l, hl⟩ : ∃ l, iv.length = l + 1 := ⟨iv.length - 1, by omega⟩
        rw [hl, List.take_succ_cons, List.cons_append]
        refine .item (s' := { iter := s', selectedRows := ivs, currentRemaining := iv.length - 1, current := iv.start + iv.length, totalLength := total }) ?_ ?_
        · simp [SliceIter.next, usub_ok, hst, e1, hl]
        · rw [hl] at this ⊢
          rw [show iv.start + (l + 1) - (l + 1 - 1) = current + (iv.start - current + 1) by omega] at this
          exact this
    · have hx : 0 < xs.length := by omega
      cases hy with
      | done => simp at hx
      | @item _ s' a as h1 h2 =>
        obtain ⟨r', rfl⟩ : ∃ r', r = r' + 1 := ⟨r - 1, by omega⟩
        have := ih s' as ivs r' current h2 (by omega) (by simpa using hr) (by omega) hs
          (by intro v hv
              have h1 := hw v hv
              simp only [List.length_cons] at h1; omega) hp
        have hsel := selectFrom_drop (current - (r' + 1)) 1 ivs (a :: as) (by simp) (by
          intro v hv
          have := sortedFrom_le hs v hv
          omega)
        rw [hsel, List.drop_one, List.tail_cons, List.take_succ_cons, List.cons_append,
          show current - (r' + 1) + 1 = current - r' by omega]
        refine .item ?_ this
        simp [SliceIter.next, usub_ok, h1]

/-! ### `FilteredHybridBitmapIter` -/

theorem runBits_length (e : Encoded) : (runBits e).length = e.len := by
  cases e <;> simp [runBits, Encoded.len]

theorem count_filter (l : List Bool) : (l.filter id).length = l.count true := by
  induction l with
  | nil => rfl
  | cons a l ih => cases a <;> simp [ih]

theorem setCount_ok (e : Encoded) (off n : Nat) (he : RunOk e) (h : off + n ≤ e.len) :
    e.setCount off n = .ok ((((runBits e).drop off).take n).count true) := by
  cases e with
  | repeated b m =>
    simp only [Encoded.len] at h
    simp only [Encoded.setCount, runBits, List.drop_replicate, List.take_replicate]
    rw [Nat.min_eq_left (by omega)]
    cases b <;> simp [List.count_replicate]
  | bitmap bytes m =>
    simp only [Encoded.len] at h
    simp only [RunOk] at he
    obtain ⟨it, h1, h2⟩ := Bitmap.collect_eq bytes off n (by omega)
    simp only [Encoded.setCount, isSetCount, h1, h2, Res.map', count_filter]
    congr 2
    apply List.ext_getElem
    · simp [runBits]; omega
    · intro i h3 h4; simp [runBits]

theorem emit_bits (e : Encoded) (off n : Nat) (h : off + n ≤ e.len) :
    selectedBits (e.emit off n) = ((runBits e).drop off).take n := by
  cases e with
  | repeated b m =>
    simp only [Encoded.len] at h
    simp only [Encoded.emit, selectedBits, runBits, List.drop_replicate, List.take_replicate]
    rw [Nat.min_eq_left (by omega)]
  | bitmap bytes m =>
    simp only [Encoded.len] at h
    simp only [Encoded.emit, selectedBits]
    apply List.ext_getElem
    · simp [runBits]; omega
    · intro i h3 h4; simp [runBits]

theorem consume_emit {α : Type} (e : Encoded) (off n : Nat) (rest : List Filtered) (vs : List α) :
    consume (e.emit off n :: rest) vs = assemble (selectedBits (e.emit off n)) vs ++
      consume rest (vs.drop ((selectedBits (e.emit off n)).count true)) := by
  cases e <;> rfl

/-- Rows not yet visited. -/
def pending (current : Option (Encoded × Nat)) (rs : List Encoded) : List Bool :=
  (match current with
   | some (run, off) => (runBits run).drop off
   | none => []) ++ rs.flatMap runBits

def headGap (pos : Nat) : List Interval → Nat
  | [] => 0
  | iv :: _ => if pos < iv.start then 1 else 0

/-- Number of calls of `next` still possible. -/
def fmeasure (current : Option (Encoded × Nat)) (rs : List Encoded) (pos : Nat)
    (ivs : List Interval) : Nat :=
  3 * rs.length + (if current.isSome then 2 else 0) + 2 * ivs.length + headGap pos ivs

theorem headGap_le (pos : Nat) (ivs : List Interval) : headGap pos ivs ≤ 1 := by
  cases ivs with
  | nil => simp [headGap]
  | cons iv ivs => simp only [headGap]; split <;> omega

theorem headGap_mono {p q : Nat} (ivs : List Interval) (h : p ≤ q) : headGap q ivs ≤ headGap p ivs := by
  cases ivs with
  | nil => simp [headGap]
  | cons iv ivs => simp only [headGap]; split <;> split <;> omega

/-- What the iterator does from a state: it ends or emits an item and goes to a smaller state. -/
def Good {σ : Type} (next : σ → Res (Option Encoded × σ)) (ck : Bool) (n : Nat) : Prop :=
  ∀ (s : σ) (rs : List Encoded) (current : Option (Encoded × Nat)) (civ : Option Interval)
    (rows : List Interval) (pos total : Nat),
    Yields next s rs → (∀ e ∈ rs, RunOk e) →
    (∀ run off, current = some (run, off) → RunOk run ∧ off ≤ run.len) →
    SortedFrom pos (civ.toList ++ rows) → Within (pos + (pending current rs).length) (civ.toList ++ rows) →
    total = ((civ.toList ++ rows).map (·.length)).sum →
    fmeasure current rs pos (civ.toList ++ rows) < n →
    ∃ items, Yields (FilteredIter.next ck next)
        { iter := s, current, currentInterval := civ, selectedRows := rows, currentItemsInRuns := pos,
          totalItems := total } items ∧
      items.flatMap selectedBits = selectFrom pos (civ.toList ++ rows) (pending current rs) ∧
      ∀ {α : Type} (vs : List α),
        consume items vs = selectFrom pos (civ.toList ++ rows) (assemble (pending current rs) vs)

theorem take_drop_split (l : List Bool) (off k : Nat) :
    l.drop off = (l.drop off).take k ++ l.drop (off + k) := by
  rw [← List.drop_drop, List.take_append_drop]

theorem head?_tail_toList {α : Type} (l : List α) : l.head?.toList ++ l.tail = l := by
  cases l <;> rfl

theorem good_step {σ : Type} {next : σ → Res (Option Encoded × σ)} {ck : Bool} {n : Nat}
    (ih : Good next ck n) (s : σ) (rs : List Encoded) (run : Encoded) (off : Nat) (iv : Interval)
    (rows : List Interval) (pos total : Nat)
    (hy : Yields next s rs) (hrs : ∀ e ∈ rs, RunOk e) (hok : RunOk run) (hoff : off ≤ run.len)
    (hs : SortedFrom pos (iv :: rows))
    (hw : Within (pos + (pending (some (run, off)) rs).length) (iv :: rows))
    (ht : total = ((iv :: rows).map (·.length)).sum)
    (hm : fmeasure (some (run, off)) rs pos (iv :: rows) < n + 1)
    (any : Option (Encoded × Nat)) :
    ∃ item st' items, FilteredIter.step ck
        { iter := s, current := any, currentInterval := some iv, selectedRows := rows,
          currentItemsInRuns := pos, totalItems := total } iv run off = .ok (some item, st') ∧
      Yields (FilteredIter.next ck next) st' items ∧
      (item :: items).flatMap selectedBits = selectFrom pos (iv :: rows) (pending (some (run, off)) rs) ∧
      ∀ {α : Type} (vs : List α),
        consume (item :: items) vs =
          selectFrom pos (iv :: rows) (assemble (pending (some (run, off)) rs) vs) := by
  have hst := hs.1
  simp only [List.map_cons, List.sum_cons] at ht
  have hlen : (runBits run).length = run.len := runBits_length run
  have hsplit : ∀ k, k ≤ run.len - off →
      pending (some (run, off)) rs = ((runBits run).drop off).take k ++ pending (some (run, off + k)) rs ∧
      (((runBits run).drop off).take k).length = k := by
    intro k hk
    constructor
    · simp only [pending]
      rw [take_drop_split (runBits run) off k, List.append_assoc]
      congr 2
      rw [← take_drop_split]
    · rw [List.length_take, List.length_drop, hlen]; omega
  have hfull : pending (some (run, run.len)) rs = pending none rs := by
    simp only [pending]
    rw [List.drop_eq_nil_of_le (by omega)]
  unfold FilteredIter.step
  rw [usub_ok _ _ _ hoff, usub_ok _ _ _ hst]
  simp only [Res.ok_bind]
  by_cases hgap : 0 < iv.start - pos
  · rw [if_pos hgap]
    have hk : min (iv.start - pos) (run.len - off) ≤ run.len - off := Nat.min_le_right _ _
    generalize hkk : min (iv.start - pos) (run.len - off) = k at hk
    have hkst : pos + k ≤ iv.start := by omega
    rw [setCount_ok _ _ _ hok (by omega)]
    simp only [Res.ok_bind]
    obtain ⟨hp, hpl⟩ := hsplit k hk
    have hcons : ∀ (cur : Option (Encoded × Nat)), pending cur rs = pending (some (run, off + k)) rs →
        (∀ r o, cur = some (r, o) → RunOk r ∧ o ≤ r.len) →
        fmeasure cur rs (pos + k) (iv :: rows) < n →
        ∃ items, Yields (FilteredIter.next ck next)
          { iter := s, current := cur, currentInterval := some iv, selectedRows := rows,
            currentItemsInRuns := pos + k, totalItems := total } items ∧
          items.flatMap selectedBits = selectFrom pos (iv :: rows) (pending (some (run, off)) rs) ∧
          ∀ {α : Type} (vs : List α),
            consume (.skipped ((((runBits run).drop off).take k).count true) :: items) vs =
            selectFrom pos (iv :: rows) (assemble (pending (some (run, off)) rs) vs) := by
      intro cur hpc hcok hcm
      obtain ⟨items, h1, hb, h2⟩ := ih s rs cur (some iv) rows (pos + k) total hy hrs hcok
        ⟨hkst, hs.2⟩ (by
          intro v hv
          have := hw v hv
          rw [hp, List.length_append, hpl] at this
          rw [hpc]; omega)
        (by simpa using ht) hcm
      refine ⟨items, h1, ?_, ?_⟩
      · have := selectFrom_skip pos (iv :: rows) (((runBits run).drop off).take k)
          (pending (some (run, off + k)) rs)
          (by rw [hpl]; exact sortedFrom_le (p := pos + k) ⟨hkst, hs.2⟩)
        rw [hp, this, hpl, hb, hpc]; rfl
      intro α vs
      rw [show consume (.skipped ((((runBits run).drop off).take k).count true) :: items) vs =
        consume items (vs.drop ((((runBits run).drop off).take k).count true)) from rfl]
      rw [h2, hp, assemble_append, hpc]
      have hl2 := assemble_length (((runBits run).drop off).take k) vs
      rw [hpl] at hl2
      have := selectFrom_skip pos (iv :: rows) (assemble (((runBits run).drop off).take k) vs)
        (assemble (pending (some (run, off + k)) rs) (vs.drop ((((runBits run).drop off).take k).count true)))
        (by rw [hl2]
            exact sortedFrom_le (p := pos + k) ⟨hkst, hs.2⟩)
      rw [this, hl2]; rfl
    by_cases hmx : k = run.len - off
    · obtain ⟨items, h1, hb, h2⟩ := hcons none (by
        rw [show off + k = run.len by omega, hfull]) (by simp) (by
        have hm1 := headGap_mono (iv :: rows) (show pos ≤ pos + k by omega)
        simp only [fmeasure, Option.isSome_some, Option.isSome_none, if_true] at hm ⊢
        simp only [Bool.false_eq_true, if_false]; omega)
      exact ⟨_, _, items, rfl, by simpa [hmx] using h1, by
        rw [List.flatMap_cons]; simpa [selectedBits] using hb, h2⟩
    · have hke : k = iv.start - pos := by omega
      obtain ⟨items, h1, hb, h2⟩ := hcons (some (run, off + k)) rfl (by
          intro r o h
          simp only [Option.some.injEq, Prod.mk.injEq] at h
          obtain ⟨rfl, rfl⟩ := h
          exact ⟨hok, by omega⟩) (by
        simp only [fmeasure, Option.isSome_some, if_true, headGap] at hm ⊢
        rw [if_neg (by omega)]
        rw [if_pos (by omega)] at hm
        omega)
      exact ⟨_, _, items, rfl, by simpa [hmx] using h1, by
        rw [List.flatMap_cons]; simpa [selectedBits] using hb, h2⟩
  · have he : iv.start = pos := by omega
    have hz : iv.start - pos = 0 := by omega
    rw [if_neg hgap, hz]
    simp only [Nat.add_zero]
    rw [if_neg (by omega)]
    by_cases hlong : run.len - off > iv.length
    · rw [if_pos hlong, usub_ok _ _ _ (by omega)]
      simp only [Res.ok_bind]
      obtain ⟨hp, hpl⟩ := hsplit iv.length (by omega)
      obtain ⟨items, h1, hb, h2⟩ := ih s rs (some (run, off + iv.length)) rows.head? rows.tail
        (pos + iv.length) (total - iv.length) hy hrs
        (by intro r o h
            simp only [Option.some.injEq, Prod.mk.injEq] at h
            obtain ⟨rfl, rfl⟩ := h
            exact ⟨hok, by omega⟩)
        (by rw [head?_tail_toList, ← he]; exact hs.2)
        (by rw [head?_tail_toList]
            intro v hv
            have := hw v (by simp [hv])
            rw [hp, List.length_append, hpl] at this; omega)
        (by rw [head?_tail_toList]; omega)
        (by rw [head?_tail_toList]
            simp only [fmeasure, Option.isSome_some, if_true, List.length_cons] at hm ⊢
            have := headGap_le (pos + iv.length) rows
            omega)
      refine ⟨_, _, items, rfl, h1, ?_, ?_⟩
      · rw [List.flatMap_cons, emit_bits _ _ _ (by omega), hb, head?_tail_toList, hp,
          selectFrom_head pos iv rows _ _ he hpl.symm (by rw [hpl, ← he]; exact hs.2), hpl]
      intro α vs
      rw [consume_emit, emit_bits _ _ _ (by omega), h2, head?_tail_toList, hp, assemble_append]
      have hl2 := assemble_length (((runBits run).drop off).take iv.length) vs
      rw [hpl] at hl2
      rw [selectFrom_head pos iv rows _ _ he hl2.symm (by rw [hl2, ← he]; exact hs.2), hl2]
    · rw [if_neg hlong, usub_ok _ _ _ hoff]
      simp only [Res.ok_bind, Nat.min_self, FilteredIter.advance]
      rw [usub_ok _ _ _ (by omega), Res.ok_bind, usub_ok _ _ _ (by omega), Res.ok_bind, Res.ok_bind]
      obtain ⟨hp, hpl⟩ := hsplit (run.len - off) (by omega)
      rw [show off + (run.len - off) = run.len by omega, hfull] at hp
      obtain ⟨items, h1, hb, h2⟩ := ih s rs none
        (some { start := iv.start + (run.len - off), length := iv.length - (run.len - off) }) rows
        (pos + (run.len - off)) (total - (run.len - off)) hy hrs (by simp)
        ⟨by simp only; omega, by
          have := hs.2
          simp only
          rwa [show iv.start + (run.len - off) + (iv.length - (run.len - off)) = iv.start + iv.length by omega]⟩
        (by intro v hv
            rw [hp, List.length_append, hpl] at hw
            rcases List.mem_cons.1 hv with rfl | hv
            · have := hw iv (by simp)
              simp only; omega
            · have := hw v (List.mem_cons_of_mem _ hv); omega)
        (by simp only [Option.toList_some, List.singleton_append, List.map_cons, List.sum_cons]; omega)
        (by simp only [fmeasure, Option.isSome_some, if_true, headGap, Option.toList_some,
              List.singleton_append, List.length_cons] at hm ⊢
            rw [if_neg (show ¬ (pos + (run.len - off) < iv.start + (run.len - off)) by omega)]
            rw [if_neg (show ¬ (pos < iv.start) by omega)] at hm
            simp only [Option.isSome_none, Bool.false_eq_true, if_false]; omega)
      refine ⟨_, _, items, rfl, h1, ?_, ?_⟩
      · rw [List.flatMap_cons, emit_bits _ _ _ (by omega), hb, hp,
          selectFrom_part pos iv rows _ _ he (by rw [hpl]; omega) hs.2, hpl]
        rfl
      intro α vs
      rw [consume_emit, emit_bits _ _ _ (by omega), h2, hp, assemble_append]
      have hl2 := assemble_length (((runBits run).drop off).take (run.len - off)) vs
      rw [hpl] at hl2
      rw [selectFrom_part pos iv rows _ _ he (by rw [hl2]; omega) hs.2, hl2]
      rfl

theorem selectFrom_nil {α : Type} (pos : Nat) (ivs : List Interval) :
    selectFrom pos ivs ([] : List α) = [] := by
  induction ivs with
  | nil => rfl
  | cons iv ivs ih => rw [selectFrom_cons, ih]; simp

theorem filtered_good {σ : Type} (next : σ → Res (Option Encoded × σ)) (ck : Bool) (n : Nat) :
    Good next ck n := by
  induction n with
  | zero => intro s rs current civ rows pos total _ _ _ _ _ _ hm; omega
  | succ n ih =>
    intro s rs current civ rows pos total hy hrs hcur hs hw ht hm
    -- the interval
    have key : ∀ iv rows' , civ.toList ++ rows = iv :: rows' →
        ∃ items, (∀ st', FilteredIter.withRun ck next { iter := s, current, currentInterval := some iv, selectedRows := rows', currentItemsInRuns := pos, totalItems := total } iv = FilteredIter.next ck next st' → Yields (FilteredIter.next ck next) st' items) ∧
          items.flatMap selectedBits = selectFrom pos (civ.toList ++ rows) (pending current rs) ∧
          ∀ {α : Type} (vs : List α),
            consume items vs = selectFrom pos (civ.toList ++ rows) (assemble (pending current rs) vs) := by
      intro iv rows' he
      rw [he] at hs hw ht hm ⊢
      cases current with
      | some ro =>
        obtain ⟨run, off⟩ := ro
        obtain ⟨hok, hoff⟩ := hcur run off rfl
        obtain ⟨item, st', items, h1, h2, hb, h3⟩ := good_step ih s rs run off iv rows' pos total hy hrs hok
          hoff hs hw ht hm (some (run, off))
        exact ⟨item :: items, fun st hst => .item (by rw [← hst]; exact h1) h2, hb, h3⟩
      | none =>
        cases hy with
        | done h =>
          refine ⟨[], fun st hst => .done (by rw [← hst]; simp only [FilteredIter.withRun, h]; rfl), by simp [pending, selectFrom_nil], ?_⟩
          intro α vs
          simp [pending, consume, assemble, selectFrom_nil]
        | @item _ s' run rs' h1 h2 =>
          obtain ⟨item, st', items, g1, g2, gb, g3⟩ := good_step ih s' rs' run 0 iv rows' pos total h2
            (fun e he => hrs e (by simp [he])) (hrs run (by simp)) (by omega) hs
            (by intro v hv
                have := hw v hv
                simpa [pending] using this) ht
            (by simp only [fmeasure, Option.isSome_some, Option.isSome_none, if_true, List.length_cons,
                  Bool.false_eq_true, if_false] at hm ⊢
                omega) (some (run, 0))
          refine ⟨item :: items, fun st hst => .item (by rw [← hst]; simp only [FilteredIter.withRun, h1]; exact g1) g2, by rw [gb]; simp [pending], ?_⟩
          intro α vs
          rw [g3]
          simp [pending]
    cases civ with
    | some iv =>
      obtain ⟨items, h1, hb, h2⟩ := key iv rows rfl
      exact ⟨items, h1 _ rfl, hb, h2⟩
    | none =>
      cases rows with
      | nil => exact ⟨[], .done (by simp only [FilteredIter.next]; rfl), rfl, by intro α vs; rfl⟩
      | cons iv rows =>
        obtain ⟨items, h1, hb, h2⟩ := key iv rows rfl
        exact ⟨items, h1 _ rfl, hb, h2⟩

end Pq.Deser
