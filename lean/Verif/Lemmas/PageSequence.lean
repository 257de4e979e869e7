import Verif.Spec.PageSequence
import Verif.Lemmas.PageSource
import Verif.Lemmas.PageIO2
import Verif.Lemmas.ThriftProtocol
/-
How page readers depend on the limit, the filter, the buffer and the bytes.
-/
namespace Pq
open Spec

/-! ### The compact protocol -/

theorem Compact.codecOf_monotone {T : Type} (r : Compact.Repr' T) : MonotoneCodec (Compact.codecOf r) := by
  refine ⟨fun max max' bs x rest hm h => ?_⟩
  simp only [Compact.codecOf, Compact.readStruct] at h ⊢
  cases hd : Compact.decVal (2 * bs.length + 1) 12 bs with
  | err e => rw [hd] at h; simp at h
  | panic => rw [hd] at h; simp at h
  | ok y =>
    obtain ⟨v, r'⟩ := y
    rw [hd] at h
    simp only at h ⊢
    by_cases hc : Compact.cost v ≤ max
    · rw [if_pos hc] at h
      rw [if_pos (Nat.le_trans hc hm)]
      exact h
    · rw [if_neg hc] at h
      simp at h

theorem Compact.codecOf_local {T : Type} (r : Compact.Repr' T) : LocalCodec (Compact.codecOf r) := by
  refine ⟨fun max bs x rest h => ?_⟩
  simp only [Compact.codecOf, Compact.readStruct] at h ⊢
  cases hd : Compact.decVal (2 * bs.length + 1) 12 bs with
  | err e => rw [hd] at h; simp at h
  | panic => rw [hd] at h; simp at h
  | ok y =>
    obtain ⟨v, r'⟩ := y
    obtain ⟨c, h1, h2, h3⟩ := (Compact.local_dec _).1 _ _ _ _ hd
    rw [hd] at h
    simp only at h
    by_cases hc : Compact.cost v ≤ max
    · rw [if_pos hc] at h
      simp only [Prod.mk.injEq] at h
      refine ⟨c, by rw [← h.2]; exact h1, fun ext => ?_⟩
      rw [h3 _ ext (by rw [List.length_append]; omega)]
      simp only [if_pos hc, h.1]
    · rw [if_neg hc] at h
      simp at h

/-! ### Pages built -/

/-- A page is built exactly if all its parts are there. -/
theorem buildPage_ok (codec : Codec Thrift.PageHeader) (ck : Bool) (r r' : PageReader) (p : CompressedPage) :
    buildPage codec ck r = (.ok p, r') ↔
      ∃ header rest dh seen n, codec.parse r.maxPageSize r.reader = (.ok header, rest) ∧
        getPageHeader header = .ok dh ∧ addI64 ck r.seenNumValues (headerValues dh) = .ok seen ∧
        toUsize header.compressedPageSize = .ok n ∧ n ≤ r.maxPageSize ∧ n ≤ rest.length ∧
        finishPage header (rest.take n) r.compression r.descriptor none = .ok p ∧
        r' = { r with reader := rest.drop n, seenNumValues := seen, reserved := n :: r.reserved } := by
  unfold buildPage
  rcases codec.parse r.maxPageSize r.reader with ⟨x, rest⟩
  constructor
  · intro h
    cases x with
    | err e => simp at h
    | panic => simp at h
    | ok header =>
      simp only at h
      cases hg : getPageHeader header with
      | err e => rw [hg] at h; simp at h
      | panic => rw [hg] at h; simp at h
      | ok dh =>
        rw [hg] at h
        simp only at h
        cases ha : addI64 ck r.seenNumValues (headerValues dh) with
        | err e => rw [ha] at h; simp at h
        | panic => rw [ha] at h; simp at h
        | ok seen =>
          rw [ha] at h
          simp only at h
          cases hu : toUsize header.compressedPageSize with
          | err e => rw [hu] at h; simp at h
          | panic => rw [hu] at h; simp at h
          | ok n =>
            rw [hu] at h
            simp only at h
            by_cases hn : r.maxPageSize < n
            · rw [if_pos hn] at h; simp at h
            · rw [if_neg hn] at h
              by_cases hl : (rest.take n).length ≠ n
              · rw [if_pos hl] at h; simp at h
              · rw [if_neg hl] at h
                simp only [Prod.mk.injEq] at h
                simp only [ne_eq, not_not, List.length_take] at hl
                exact ⟨header, rest, dh, seen, n, rfl, hg, ha, hu, by omega, by omega, h.1, h.2.symm⟩
  · rintro ⟨header, rest', dh, seen, n, h0, hg, ha, hu, hn, hl, hf, rfl⟩
    simp only [Prod.mk.injEq] at h0
    obtain ⟨rfl, rfl⟩ := h0
    simp only [hg, ha, hu]
    rw [if_neg (by omega), if_neg (by simp only [List.length_take]; omega), hf]

theorem buildPage_shorter {codec : Codec Thrift.PageHeader} (hs : SaneCodec codec) (ck : Bool) (r r' : PageReader)
    (p : CompressedPage) (h : buildPage codec ck r = (.ok p, r')) :
    r'.reader.length < r.reader.length ∧ r'.scratch = r.scratch := by
  obtain ⟨header, rest, dh, seen, n, h0, -, -, -, -, -, -, rfl⟩ := (buildPage_ok codec ck r r' p).1 h
  have := hs.progress r.maxPageSize r.reader header (by rw [h0])
  rw [h0] at this
  refine ⟨?_, rfl⟩
  simp only [List.length_drop] at this ⊢
  omega

/-- The bytes a page is built from. -/
theorem buildPage_local {codec : Codec Thrift.PageHeader} (hc : LocalCodec codec) (ck : Bool) (r r' : PageReader)
    (p : CompressedPage) (h : buildPage codec ck r = (.ok p, r')) :
    ∃ c, r.reader = c ++ r'.reader ∧
      ∀ ext, buildPage codec ck { r with reader := c ++ ext } = (.ok p, { r' with reader := ext }) := by
  obtain ⟨header, rest, dh, seen, n, h0, hg, ha, hu, hn, hl, hf, rfl⟩ := (buildPage_ok codec ck r r' p).1 h
  obtain ⟨c, h1, h2⟩ := hc.loc _ _ _ _ h0
  refine ⟨c ++ rest.take n, by simp [h1], fun ext => ?_⟩
  refine (buildPage_ok codec ck _ _ p).2 ⟨header, rest.take n ++ ext, dh, seen, n, ?_, hg, ha, hu, hn, ?_, ?_, ?_⟩
  · have := h2 (rest.take n ++ ext)
    rw [← List.append_assoc] at this
    exact this
  · simp only [List.length_append, List.length_take]; omega
  · rw [List.take_append_of_le_length (by simp only [List.length_take]; omega),
      List.take_of_length_le (by simp only [List.length_take]; omega)]
    exact hf
  · have : (rest.take n ++ ext).drop n = ext := List.drop_left' (by simp only [List.length_take]; omega)
    simp only [this]

/-! ### The limit -/

theorem build_limit {codec : Codec Thrift.PageHeader} (hs : SaneCodec codec) (hm : MonotoneCodec codec) (ck : Bool)
    (r : PageReader) (m : Nat) (hle : r.maxPageSize ≤ m) :
    (∃ e, (buildPage codec ck r).1 = .err e) ∨
    buildPage codec ck { r with maxPageSize := m } =
      ((buildPage codec ck r).1, { (buildPage codec ck r).2 with maxPageSize := m }) := by
  unfold buildPage
  rcases hp : codec.parse r.maxPageSize r.reader with ⟨x, rest⟩
  cases x with
  | err e => exact .inl ⟨e, rfl⟩
  | panic => exact absurd (by rw [hp]) (hs.noPanic r.maxPageSize r.reader)
  | ok header =>
    simp only [hm.mono _ m _ _ _ hle hp]
    cases getPageHeader header with
    | err e => exact .inl ⟨e, rfl⟩
    | panic => exact .inr rfl
    | ok dh =>
      simp only
      cases addI64 ck r.seenNumValues (headerValues dh) with
      | err e => exact .inl ⟨e, rfl⟩
      | panic => exact .inr rfl
      | ok seen =>
        simp only
        cases toUsize header.compressedPageSize with
        | err e => exact .inl ⟨e, rfl⟩
        | panic => exact .inr rfl
        | ok n =>
          simp only
          by_cases hn : r.maxPageSize < n
          · rw [if_pos hn]; exact .inl ⟨_, rfl⟩
          · right
            rw [if_neg hn]
            by_cases h2 : m < n
            · omega
            · rw [if_neg h2]
              split <;> rfl

theorem nextFuel_limit {codec : Codec Thrift.PageHeader} (hs : SaneCodec codec) (hm : MonotoneCodec codec) (ck : Bool)
    (fuel : Nat) (r : PageReader) (m : Nat) (hle : r.maxPageSize ≤ m) :
    (∃ e, (PageReader.nextFuel codec ck fuel r).1 = some (.err e)) ∨
    PageReader.nextFuel codec ck fuel { r with maxPageSize := m } =
      ((PageReader.nextFuel codec ck fuel r).1,
        { (PageReader.nextFuel codec ck fuel r).2 with maxPageSize := m }) := by
  induction fuel generalizing r with
  | zero => exact .inr rfl
  | succ fuel ih =>
    simp only [PageReader.nextFuel, nextPage]
    by_cases hv : r.totalNumValues.toInt ≤ r.seenNumValues.toInt
    · rw [if_pos hv, if_pos hv]; exact .inr rfl
    · rw [if_neg hv, if_neg hv]
      have hb := build_limit hs hm ck { r with scratch := [] } m hle
      have hcfg := (buildPage_built (codec := codec) ck { r with scratch := [] }).config
      rcases hx : buildPage codec ck { r with scratch := [] } with ⟨page, r1⟩
      rw [hx] at hb hcfg
      rcases hb with ⟨e, he⟩ | hb
      · simp only at he
        subst he
        exact .inl ⟨e, rfl⟩
      · simp only at hb ⊢
        rw [hb]
        simp only
        have hw : PageReader.wants { r1 with maxPageSize := m } page = r1.wants page := by
          cases page with
          | ok p => cases p <;> rfl
          | err e => rfl
          | panic => rfl
        rw [hw]
        cases r1.wants page with
        | true => exact .inr rfl
        | false => exact ih { r1 with scratch := [] } (by rw [show r1.maxPageSize = r.maxPageSize from hcfg.1]; exact hle)

/-- Items up to the first that is not a success, for two iterators that agree unless the first one fails. -/
theorem items_until_error {σ τ α : Type} {next : σ → Option (Res α) × σ} {next' : τ → Option (Res α) × τ}
    {R : σ → τ → Prop}
    (step : ∀ s t, R s t → (∃ e, (next s).1 = some (.err e)) ∨
      ((next' t).1 = (next s).1 ∧ R (next s).2 (next' t).2)) (n : Nat) (s : σ) (t : τ) (h : R s t) :
    SameUntilError (items next n s).1 (items next' n t).1 := by
  induction n generalizing s t with
  | zero => exact .inl rfl
  | succ n ih =>
    rcases step s t h with ⟨e, he⟩ | ⟨h1, h2⟩
    · right
      refine ⟨0, e, ?_, ?_⟩
      · simp only [items]
        rcases next' t with ⟨_ | (_ | _ | _), t'⟩ <;> simp
      · simp only [items]
        rcases hx : next s with ⟨x, s'⟩
        rw [hx] at he
        simp only at he
        subst he
        simp
    · simp only [items]
      rcases hx : next s with ⟨x, s'⟩
      rcases hy : next' t with ⟨y, t'⟩
      rw [hx, hy] at h1 h2
      simp only at h1 h2
      subst h1
      match y with
      | none => exact .inl rfl
      | some (.err e) => exact .inl rfl
      | some .panic => exact .inl rfl
      | some (.ok a) =>
        rcases ih s' t' h2 with h | ⟨k, e, h3, h4⟩
        · exact .inl (by simp only [h])
        · exact .inr ⟨k + 1, e, by simp only [List.length_cons]; omega, by simp only [h4, List.take_succ_cons]; rfl⟩

/-! ### The filter -/

/-- The reader without its filter. -/
def PageReader.all (r : PageReader) : PageReader := { r with pagesFilter := fun _ _ => true }

/-- The reader with a filter. -/
def PageReader.withFilter (r : PageReader) (f : PageFilter) : PageReader := { r with pagesFilter := f }

theorem build_filter (codec : Codec Thrift.PageHeader) (ck : Bool) (r : PageReader) (f : PageFilter) :
    buildPage codec ck (r.withFilter f) = ((buildPage codec ck r).1, (buildPage codec ck r).2.withFilter f) := by
  unfold buildPage PageReader.withFilter
  rcases codec.parse r.maxPageSize r.reader with ⟨_ | _ | _, rest⟩
  · rename_i header
    simp only
    cases getPageHeader header with
    | err e => rfl
    | panic => rfl
    | ok dh =>
      simp only
      cases addI64 ck r.seenNumValues (headerValues dh) with
      | err e => rfl
      | panic => rfl
      | ok seen =>
        simp only
        cases toUsize header.compressedPageSize with
        | err e => rfl
        | panic => rfl
        | ok n =>
          simp only
          split
          · rfl
          · split <;> rfl
  · rfl
  · rfl

theorem wants_all (r : PageReader) (x : Res CompressedPage) : r.all.wants x = true := by
  cases x with
  | ok p => cases p <;> rfl
  | err e => rfl
  | panic => rfl

theorem wants_config {r r' : PageReader} (h : SameConfig r r') (x : Res CompressedPage) : r'.wants x = r.wants x := by
  obtain ⟨-, -, h1, h2, -⟩ := h
  cases x with
  | ok p => cases p <;> simp only [PageReader.wants, h1, h2]
  | err e => rfl
  | panic => rfl

/-- A step of the reader with a filter is one of the reader without, and another one if the page is not
wanted. -/
theorem next_filter {codec : Codec Thrift.PageHeader} (hs : SaneCodec codec) (ck : Bool) (r : PageReader) :
    PageReader.next codec ck r =
      match PageReader.next codec ck r.all with
      | (none, t) => (none, t.withFilter r.pagesFilter)
      | (some x, t) =>
        if r.wants x then (some x, t.withFilter r.pagesFilter)
        else PageReader.next codec ck (t.withFilter r.pagesFilter) := by
  have hf : (r.all : PageReader).all = r.all := rfl
  have hb := build_filter codec ck { r with scratch := [] } (fun _ _ => true)
  have e : ({ r with scratch := [] } : PageReader).withFilter (fun _ _ => true) = { r.all with scratch := [] } := rfl
  rw [e] at hb
  have hc := (buildPage_built (codec := codec) ck { r with scratch := [] }).config
  unfold PageReader.next
  conv_lhs => rw [PageReader.nextFuel]
  conv_rhs => rw [PageReader.nextFuel]
  simp only [nextPage]
  by_cases hv : r.totalNumValues.toInt ≤ r.seenNumValues.toInt
  · have hv' : r.all.totalNumValues.toInt ≤ r.all.seenNumValues.toInt := hv
    rw [if_pos hv, if_pos hv']
    rfl
  · have hv' : ¬ r.all.totalNumValues.toInt ≤ r.all.seenNumValues.toInt := hv
    rw [if_neg hv, if_neg hv', hb]
    have hlen := fun p r' => buildPage_shorter hs ck { r with scratch := [] } r' p
    rcases hx : buildPage codec ck { r with scratch := [] } with ⟨page, r1⟩
    rw [hx] at hc hlen
    have hback : (r1.withFilter fun _ _ => true).withFilter r.pagesFilter = r1 := by
      have : r1.pagesFilter = r.pagesFilter := hc.2.2.1
      unfold PageReader.withFilter
      rw [← this]
    have hwa : (r1.withFilter fun _ _ => true).wants page = true := wants_all r1 page
    simp only [hwa, if_true, hback]
    rw [show r1.wants page = r.wants page from wants_config hc page]
    cases hw : r.wants page with
    | true => rfl
    | false =>
      simp only [Bool.false_eq_true, if_false]
      have hpg : ∃ pg, page = .ok pg := by
        cases page with
        | ok p => exact ⟨p, rfl⟩
        | err e => simp [PageReader.wants] at hw
        | panic => simp [PageReader.wants] at hw
      obtain ⟨pg, rfl⟩ := hpg
      obtain ⟨h1, h2⟩ := hlen pg r1 rfl
      simp only at h1 h2
      have hscr : ({ r1 with scratch := [] } : PageReader) = r1 := by rw [← h2]
      rw [hscr]
      exact nextFuel_enough hs ck _ _ _ (by omega) (by omega)

/-! ### Bytes -/

theorem nextFuel_local {codec : Codec Thrift.PageHeader} (hs : SaneCodec codec) (hc : LocalCodec codec) (ck : Bool)
    (fuel : Nat) (r r' : PageReader) (x : Option (Res CompressedPage)) (hx : x = none ∨ ∃ p, x = some (.ok p))
    (h : PageReader.nextFuel codec ck fuel r = (x, r')) :
    ∃ c, r.reader = c ++ r'.reader ∧ (x ≠ none → c ≠ []) ∧ ∀ ext fuel', (c ++ ext).length < fuel' →
      PageReader.nextFuel codec ck fuel' { r with reader := c ++ ext } = (x, { r' with reader := ext }) := by
  induction fuel generalizing r with
  | zero =>
    simp only [PageReader.nextFuel, Prod.mk.injEq] at h
    rcases hx with hx | ⟨p, hx⟩ <;> rw [hx] at h <;> simp at h
  | succ fuel ih =>
    simp only [PageReader.nextFuel, nextPage] at h
    by_cases hv : r.totalNumValues.toInt ≤ r.seenNumValues.toInt
    · rw [if_pos hv] at h
      simp only [Prod.mk.injEq] at h
      obtain ⟨rfl, rfl⟩ := h
      refine ⟨[], rfl, fun h => absurd rfl h, fun ext fuel' hf => ?_⟩
      cases fuel' with
      | zero => omega
      | succ fuel' =>
        simp only [PageReader.nextFuel, nextPage]
        rw [if_pos hv]
        rfl
    · rw [if_neg hv] at h
      have hcfg := (buildPage_built (codec := codec) ck { r with scratch := [] }).config
      rcases hb : buildPage codec ck { r with scratch := [] } with ⟨page, r1⟩
      rw [hb] at h hcfg
      simp only at h
      cases page with
      | err e =>
        simp only [PageReader.wants, if_true, Prod.mk.injEq] at h
        rcases hx with hx | ⟨p, hx⟩ <;> rw [hx] at h <;> simp at h
      | panic =>
        simp only [PageReader.wants, if_true, Prod.mk.injEq] at h
        rcases hx with hx | ⟨p, hx⟩ <;> rw [hx] at h <;> simp at h
      | ok p =>
        obtain ⟨c, h1, h2⟩ := buildPage_local hc ck _ _ _ hb
        obtain ⟨h3, h4⟩ := buildPage_shorter hs ck _ _ _ hb
        simp only at h1 h3 h4
        have hlc : 0 < c.length := by
          have := congrArg List.length h1
          rw [List.length_append] at this
          omega
        by_cases hw : r1.wants (.ok p) = true
        · rw [if_pos hw] at h
          simp only [Prod.mk.injEq] at h
          obtain ⟨rfl, rfl⟩ := h
          refine ⟨c, h1, fun _ hn => by rw [hn] at hlc; simp at hlc, fun ext fuel' hf => ?_⟩
          cases fuel' with
          | zero => omega
          | succ fuel' =>
            simp only [PageReader.nextFuel, nextPage]
            rw [if_neg hv]
            have := h2 ext
            simp only at this
            rw [this]
            simp only
            rw [show PageReader.wants { r1 with reader := ext } (.ok p) = r1.wants (.ok p) from by cases p <;> rfl, hw]
            rfl
        · rw [if_neg hw] at h
          have hscr : ({ r1 with scratch := [] } : PageReader) = r1 := by rw [← h4]
          rw [hscr] at h
          obtain ⟨c', h5, -, h6⟩ := ih r1 h
          refine ⟨c ++ c', by rw [h1, h5, List.append_assoc], fun _ hn => by
            simp only [List.append_eq_nil_iff] at hn
            rw [hn.1] at hlc; simp at hlc, fun ext fuel' hf => ?_⟩
          cases fuel' with
          | zero => omega
          | succ fuel' =>
            simp only [PageReader.nextFuel, nextPage]
            rw [if_neg hv]
            have := h2 (c' ++ ext)
            simp only at this
            rw [List.append_assoc, this]
            simp only
            rw [show PageReader.wants { r1 with reader := c' ++ ext } (.ok p) = r1.wants (.ok p) from by cases p <;> rfl]
            rw [if_neg hw]
            have := h6 ext fuel' (by simp only [List.length_append] at hf ⊢; omega)
            rw [h4] at this
            exact this

theorem next_local {codec : Codec Thrift.PageHeader} (hs : SaneCodec codec) (hc : LocalCodec codec) (ck : Bool)
    (r r' : PageReader) (x : Option (Res CompressedPage)) (hx : x = none ∨ ∃ p, x = some (.ok p))
    (h : PageReader.next codec ck r = (x, r')) :
    ∃ c, r.reader = c ++ r'.reader ∧ (x ≠ none → c ≠ []) ∧ ∀ ext,
      PageReader.next codec ck { r with reader := c ++ ext } = (x, { r' with reader := ext }) := by
  obtain ⟨c, h1, h2, h3⟩ := nextFuel_local hs hc ck _ r r' x hx h
  exact ⟨c, h1, h2, fun ext => h3 ext _ (by show (c ++ ext).length < (c ++ ext).length + 2; omega)⟩

/-- A page takes at least a byte. -/
theorem next_shorter {codec : Codec Thrift.PageHeader} (hs : SaneCodec codec) (ck : Bool) (r r' : PageReader)
    (p : CompressedPage) (h : PageReader.next codec ck r = (some (.ok p), r')) :
    r'.reader.length < r.reader.length := by
  have main : ∀ (fuel : Nat) (r : PageReader), PageReader.nextFuel codec ck fuel r = (some (.ok p), r') →
      r'.reader.length < r.reader.length := by
    intro fuel
    induction fuel with
    | zero => intro r h; simp [PageReader.nextFuel] at h
    | succ fuel ih =>
      intro r h
      simp only [PageReader.nextFuel, nextPage] at h
      by_cases hv : r.totalNumValues.toInt ≤ r.seenNumValues.toInt
      · rw [if_pos hv] at h; simp at h
      · rw [if_neg hv] at h
        rcases hb : buildPage codec ck { r with scratch := [] } with ⟨page, r1⟩
        rw [hb] at h
        simp only at h
        cases page with
        | err e => simp [PageReader.wants] at h
        | panic => simp [PageReader.wants] at h
        | ok q =>
          obtain ⟨h3, -⟩ := buildPage_shorter hs ck _ _ _ hb
          simp only at h3
          by_cases hw : r1.wants (.ok q) = true
          · rw [if_pos hw] at h
            simp only [Prod.mk.injEq] at h
            rw [← h.2]; exact h3
          · rw [if_neg hw] at h
            have := ih _ h
            simp only at this
            omega
  exact main _ r h

end Pq
