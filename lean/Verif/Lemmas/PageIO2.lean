import Verif.Lemmas.PageIO
/-
Lemmas about the page reader on arbitrary bytes, and the indexed reader.
-/
namespace Pq
open Spec

theorem toUsize_noPanic {w : Nat} (x : BitVec w) : toUsize x ≠ .panic := by
  rw [toUsize]; split <;> simp

theorem ofThrift_noPanic (x : I32) : Encoding.ofThrift x ≠ .panic := by
  rw [Encoding.ofThrift]; repeat' split
  all_goals simp

theorem ofThrift_ok {x : I32} {e : Encoding} (h : Encoding.ofThrift x = .ok e) : knownEncoding x := by
  rw [Encoding.ofThrift] at h
  repeat' split at h
  all_goals first
    | (subst_vars; simp [knownEncoding]; done)
    | cases h

theorem pageType_noPanic (x : I32) : PageType.ofThrift x ≠ .panic := by
  rw [PageType.ofThrift]; repeat' split
  all_goals simp

theorem bind_noPanic {α β : Type} {x : Res α} {f : α → Res β} (hx : x ≠ .panic)
    (hf : ∀ a, f a ≠ .panic) : (x >>= f) ≠ .panic := by
  cases x with
  | ok a => exact hf a
  | err e => simp
  | panic => exact absurd rfl hx

theorem ofOption_noPanic {α : Type} (e : Err) (x : Option α) : Res.ofOption e x ≠ .panic := by
  cases x <;> simp [Res.ofOption]

theorem finishPage_noPanic (h : Thrift.PageHeader) (b : List Byte) (c : Compression) (d : Descriptor)
    (rows : Option (List Interval)) : finishPage h b c d rows ≠ .panic := by
  rw [finishPage]
  refine bind_noPanic (pageType_noPanic _) fun t => bind_noPanic (toUsize_noPanic _) fun n => ?_
  cases t
  · exact bind_noPanic (ofOption_noPanic _ _) fun _ => by simp
  · exact bind_noPanic (ofOption_noPanic _ _) fun _ => by simp
  · exact bind_noPanic (ofOption_noPanic _ _) fun _ =>
      bind_noPanic (toUsize_noPanic _) fun _ => by simp

theorem getPageHeader_noPanic (h : Thrift.PageHeader) : getPageHeader h ≠ .panic := by
  rw [getPageHeader]
  refine bind_noPanic (pageType_noPanic _) fun t => ?_
  cases t
  · exact bind_noPanic (ofOption_noPanic _ _) fun _ => bind_noPanic (ofThrift_noPanic _) fun _ =>
      bind_noPanic (ofThrift_noPanic _) fun _ => bind_noPanic (ofThrift_noPanic _) fun _ => by simp
  · exact bind_noPanic (ofOption_noPanic _ _) fun _ =>
      bind_noPanic (ofThrift_noPanic _) fun _ => by simp
  · simp

theorem pageType_ok {x : I32} {t : PageType} (h : PageType.ofThrift x = .ok t) :
    x = t.toThrift := by
  rw [PageType.ofThrift] at h
  repeat' split at h
  all_goals first
    | (injection h with h; subst h; assumption)
    | cases h

theorem getPageHeader_iff (h : Thrift.PageHeader) (dh : Option DataPageHeader) :
    getPageHeader h = .ok dh ↔ ValidHeader h dh := by
  constructor
  · intro hh
    rw [getPageHeader] at hh
    obtain ⟨t, ht, hh⟩ := Res.bind_eq_ok.1 hh
    have ht := pageType_ok ht
    cases t with
    | dataPage =>
      obtain ⟨v, hv, hh⟩ := Res.bind_eq_ok.1 hh
      obtain ⟨_, e1, hh⟩ := Res.bind_eq_ok.1 hh
      obtain ⟨_, e2, hh⟩ := Res.bind_eq_ok.1 hh
      obtain ⟨_, e3, hh⟩ := Res.bind_eq_ok.1 hh
      injection hh with hh
      refine Or.inl ⟨ht, v, ?_, hh.symm, ofThrift_ok e1, ofThrift_ok e3, ofThrift_ok e2⟩
      cases ho : h.dataPageHeader <;> simp_all [Res.ofOption]
    | dataPageV2 =>
      obtain ⟨v, hv, hh⟩ := Res.bind_eq_ok.1 hh
      obtain ⟨_, e1, hh⟩ := Res.bind_eq_ok.1 hh
      injection hh with hh
      refine Or.inr (Or.inl ⟨ht, v, ?_, hh.symm, ofThrift_ok e1⟩)
      cases ho : h.dataPageHeaderV2 <;> simp_all [Res.ofOption]
    | dictionaryPage =>
      injection hh with hh
      exact Or.inr (Or.inr ⟨ht, hh.symm⟩)
  · rintro (⟨ht, v, hv, rfl, k1, k2, k3⟩ | ⟨ht, v, hv, rfl, k1⟩ | ⟨ht, rfl⟩)
    · obtain ⟨_, e1⟩ := ofThrift_known k1
      obtain ⟨_, e2⟩ := ofThrift_known k2
      obtain ⟨_, e3⟩ := ofThrift_known k3
      simp [getPageHeader, ht, PageType.ofThrift, hv, Res.ofOption, e1, e2, e3]
    · obtain ⟨_, e1⟩ := ofThrift_known k1
      simp [getPageHeader, ht, PageType.ofThrift, hv, Res.ofOption, e1]
    · simp [getPageHeader, ht, PageType.ofThrift]

theorem finishPage_ok {h : Thrift.PageHeader} {b : List Byte} {c : Compression} {d : Descriptor}
    {rows : Option (List Interval)} {p : CompressedPage} (hh : finishPage h b c d rows = .ok p) :
    p.buffer = b ∧ p.compression = c := by
  rw [finishPage] at hh
  obtain ⟨t, -, hh⟩ := Res.bind_eq_ok.1 hh
  obtain ⟨n, -, hh⟩ := Res.bind_eq_ok.1 hh
  cases t with
  | dataPage =>
    obtain ⟨v, -, hh⟩ := Res.bind_eq_ok.1 hh
    injection hh with hh; subst hh; exact ⟨rfl, rfl⟩
  | dataPageV2 =>
    obtain ⟨v, -, hh⟩ := Res.bind_eq_ok.1 hh
    injection hh with hh; subst hh; exact ⟨rfl, rfl⟩
  | dictionaryPage =>
    obtain ⟨v, -, hh⟩ := Res.bind_eq_ok.1 hh
    obtain ⟨m, -, hh⟩ := Res.bind_eq_ok.1 hh
    injection hh with hh; subst hh; exact ⟨rfl, rfl⟩

/-- The page built has the data page header of the thrift header. -/
theorem finishPage_header {h : Thrift.PageHeader} {b : List Byte} {c : Compression} {d : Descriptor}
    {rows : Option (List Interval)} {p : CompressedPage} {dh : Option DataPageHeader}
    (hh : finishPage h b c d rows = .ok p) (hv : ValidHeader h dh) : dataHeaderOf p = dh := by
  rw [finishPage] at hh
  obtain ⟨t, ht, hh⟩ := Res.bind_eq_ok.1 hh
  obtain ⟨n, -, hh⟩ := Res.bind_eq_ok.1 hh
  rcases hv with ⟨e, v, hv, rfl, -⟩ | ⟨e, v, hv, rfl, -⟩ | ⟨e, rfl⟩
  · rw [e] at ht
    obtain rfl : PageType.dataPage = t := by injection ht
    simp only [hv, Res.ofOption, Res.ok_bind] at hh
    injection hh with hh; subst hh; rfl
  · rw [e] at ht
    obtain rfl : PageType.dataPageV2 = t := by injection ht
    simp only [hv, Res.ofOption, Res.ok_bind] at hh
    injection hh with hh; subst hh; rfl
  · rw [e] at ht
    obtain rfl : PageType.dictionaryPage = t := by injection ht
    obtain ⟨v, -, hh⟩ := Res.bind_eq_ok.1 hh
    obtain ⟨m, -, hh⟩ := Res.bind_eq_ok.1 hh
    injection hh with hh; subst hh; rfl

variable {codec : Codec Thrift.PageHeader}

/-- The fields of the reader that never change. -/
def SameConfig (r r' : PageReader) : Prop :=
  r'.maxPageSize = r.maxPageSize ∧ r'.totalNumValues = r.totalNumValues ∧
    r'.pagesFilter = r.pagesFilter ∧ r'.descriptor = r.descriptor ∧ r'.compression = r.compression

theorem SameConfig.refl (r : PageReader) : SameConfig r r := ⟨rfl, rfl, rfl, rfl, rfl⟩

theorem SameConfig.trans {r s t : PageReader} (h : SameConfig r s) (h' : SameConfig s t) :
    SameConfig r t :=
  ⟨h'.1.trans h.1, h'.2.1.trans h.2.1, h'.2.2.1.trans h.2.2.1, h'.2.2.2.1.trans h.2.2.2.1,
    h'.2.2.2.2.trans h.2.2.2.2⟩

/-- What `buildPage` does to the reader. -/
structure Built (r r' : PageReader) (res : Res CompressedPage) : Prop where
  config : SameConfig r r'
  reserved : ∀ n ∈ r'.reserved, n ∈ r.reserved ∨ n ≤ r.maxPageSize
  small : ∀ p, res = .ok p → p.buffer.length ≤ r.maxPageSize

theorem buildPage_built (ck : Bool) (r : PageReader) :
    Built r (buildPage codec ck r).2 (buildPage codec ck r).1 := by
  have same : ∀ (rd : List Byte) (s : I64), SameConfig r { r with reader := rd, seenNumValues := s } :=
    fun _ _ => ⟨rfl, rfl, rfl, rfl, rfl⟩
  unfold buildPage
  split
  · exact ⟨same _ _, fun n h => Or.inl h, by simp⟩
  · exact ⟨same _ _, fun n h => Or.inl h, by simp⟩
  · simp only
    split
    · exact ⟨same _ _, fun n h => Or.inl h, by simp⟩
    · exact ⟨same _ _, fun n h => Or.inl h, by simp⟩
    · split
      · exact ⟨same _ _, fun n h => Or.inl h, by simp⟩
      · exact ⟨same _ _, fun n h => Or.inl h, by simp⟩
      · split
        · exact ⟨same _ _, fun n h => Or.inl h, by simp⟩
        · exact ⟨same _ _, fun n h => Or.inl h, by simp⟩
        · rename_i n hn
          split
          · exact ⟨same _ _, fun n h => Or.inl h, by simp⟩
          · rename_i hmax
            have hres : ∀ m ∈ n :: r.reserved, m ∈ r.reserved ∨ m ≤ r.maxPageSize := by
              intro m hm
              rcases List.mem_cons.1 hm with rfl | hm
              · exact Or.inr (by omega)
              · exact Or.inl hm
            split
            · exact ⟨⟨rfl, rfl, rfl, rfl, rfl⟩, hres, by simp⟩
            · rename_i hlen
              refine ⟨⟨rfl, rfl, rfl, rfl, rfl⟩, hres, fun p hp => ?_⟩
              rw [(finishPage_ok hp).1]
              simp only [not_not] at hlen
              simp only [hlen]
              omega

theorem nextFuel_spec (ck : Bool) (fuel : Nat) (r : PageReader) :
    SameConfig r (PageReader.nextFuel codec ck fuel r).2 ∧
    (∀ n ∈ (PageReader.nextFuel codec ck fuel r).2.reserved, n ∈ r.reserved ∨ n ≤ r.maxPageSize) ∧
    (∀ p, (PageReader.nextFuel codec ck fuel r).1 = some (.ok p) →
      p.buffer.length ≤ r.maxPageSize ∧ p.compression = r.compression ∧
      passes r.pagesFilter r.descriptor p = true) ∧
    ((PageReader.nextFuel codec ck fuel r).1 = none →
      (PageReader.nextFuel codec ck fuel r).2.totalNumValues.toInt ≤
        (PageReader.nextFuel codec ck fuel r).2.seenNumValues.toInt) := by
  induction fuel generalizing r with
  | zero => exact ⟨SameConfig.refl r, fun n h => Or.inl h, by simp [PageReader.nextFuel], by simp [PageReader.nextFuel]⟩
  | succ fuel ih =>
    rw [PageReader.nextFuel]
    rw [nextPage]
    by_cases ht : r.totalNumValues.toInt ≤ r.seenNumValues.toInt
    · rw [if_pos ht]
      exact ⟨⟨rfl, rfl, rfl, rfl, rfl⟩, fun n h => Or.inl h, by simp, fun _ => ht⟩
    · rw [if_neg ht]
      have hb := buildPage_built (codec := codec) ck { r with scratch := [] }
      have hcomp : ∀ p, (buildPage codec ck { r with scratch := [] }).1 = .ok p →
          p.compression = r.compression := by
        intro p hp
        unfold buildPage at hp
        split at hp
        · simp at hp
        · simp at hp
        · simp only at hp
          repeat' split at hp
          all_goals first
            | (simp at hp; done)
            | exact (finishPage_ok hp).2
      generalize buildPage codec ck { r with scratch := [] } = res at hb hcomp ⊢
      obtain ⟨page, r'⟩ := res
      simp only at hb hcomp ⊢
      have hcfg : SameConfig r r' := hb.config
      have hres : ∀ n ∈ r'.reserved, n ∈ r.reserved ∨ n ≤ r.maxPageSize := hb.reserved
      by_cases hw : r'.wants page = true
      · rw [if_pos hw]
        refine ⟨hcfg, hres, fun p hp => ?_, by simp⟩
        simp only [Option.some.injEq] at hp
        subst hp
        refine ⟨hb.small p rfl, hcomp p rfl, ?_⟩
        cases p with
        | data q =>
          simp only [PageReader.wants] at hw
          rw [passes, ← hcfg.2.2.1, ← hcfg.2.2.2.1]
          exact hw
        | dict q => rfl
      · rw [if_neg hw]
        obtain ⟨h1, h2, h3, h4⟩ := ih { r' with scratch := [] }
        refine ⟨hcfg.trans h1, fun n hn => ?_, fun p hp => ?_, h4⟩
        · rcases h2 n hn with h | h
          · exact hres n h
          · exact Or.inr (by simp only [hcfg.1] at h; exact h)
        · obtain ⟨a, b, e⟩ := h3 p hp
          simp only [hcfg.1, hcfg.2.2.1, hcfg.2.2.2.1, hcfg.2.2.2.2] at a b e
          exact ⟨a, b, e⟩

/-! ### No panic -/

theorem headerValues_bound (dh : Option DataPageHeader) :
    -(2 ^ 31) ≤ (headerValues dh).toInt ∧ (headerValues dh).toInt < 2 ^ 31 := by
  have key : ∀ x : I32, (asI64 (asUsize x)).toInt = x.toInt := by
    intro x
    rw [asI64, asUsize, BitVec.ofNat_toNat, BitVec.setWidth_eq, BitVec.toInt_signExtend_of_le (by omega)]
  have b : ∀ x : I32, -(2 ^ 31) ≤ x.toInt ∧ x.toInt < 2 ^ 31 := fun x =>
    ⟨x.le_toInt, x.toInt_lt⟩
  match dh with
  | none => exact ⟨by decide, by decide⟩
  | some (.v1 h) => simp only [headerValues, DataPageHeader.numValues, key]; exact b _
  | some (.v2 h) => simp only [headerValues, DataPageHeader.numValues, key]; exact b _

/-- Enough room in the counter for the values announced by `n` headers. -/
def Room (ck : Bool) (r : PageReader) (n : Nat) : Prop :=
  ck = true → -(2 ^ 63) ≤ r.seenNumValues.toInt - 2 ^ 31 * n ∧
    r.seenNumValues.toInt + 2 ^ 31 * n < 2 ^ 63

theorem buildPage_safe (hs : SaneCodec codec) (ck : Bool) (r : PageReader) (n : Nat)
    (hroom : Room ck r (n + 1)) :
    (buildPage codec ck r).1 ≠ .panic ∧
    (∀ p, (buildPage codec ck r).1 = .ok p →
      (buildPage codec ck r).2.reader.length < r.reader.length ∧
      Room ck (buildPage codec ck r).2 n) := by
  have hnp := hs.noPanic r.maxPageSize r.reader
  have hpr := hs.progress r.maxPageSize r.reader
  unfold buildPage
  generalize codec.parse r.maxPageSize r.reader = res at hnp hpr
  obtain ⟨res, rest⟩ := res
  cases res with
  | err e => exact ⟨by simp, by simp⟩
  | panic => exact absurd rfl hnp
  | ok header =>
    have hlt : rest.length < r.reader.length := hpr header rfl
    simp only
    have hg := getPageHeader_noPanic header
    cases hgg : getPageHeader header with
    | err e => exact ⟨by simp, by simp⟩
    | panic => exact absurd hgg hg
    | ok dh =>
      simp only
      have hb := headerValues_bound dh
      have hadd : ∃ s, addI64 ck r.seenNumValues (headerValues dh) = .ok s ∧
          (ck = true → s.toInt = r.seenNumValues.toInt + (headerValues dh).toInt) := by
        cases ck with
        | true =>
          have hr := hroom rfl
          obtain ⟨s, h1, h2⟩ := addI64_toInt true (a := r.seenNumValues) (b := headerValues dh)
            (by omega) (by omega)
          exact ⟨s, h1, fun _ => h2⟩
        | false => exact ⟨_, by simp [addI64]; rfl, fun h => by simp at h⟩
      obtain ⟨s, hs1, hs2⟩ := hadd
      simp only [hs1]
      have hu := toUsize_noPanic header.compressedPageSize
      cases huu : toUsize header.compressedPageSize with
      | err e => exact ⟨by simp, by simp⟩
      | panic => exact absurd huu hu
      | ok k =>
        simp only
        have hroom' : ck = true → -(2 ^ 63) ≤ s.toInt - 2 ^ 31 * n ∧ s.toInt + 2 ^ 31 * n < 2 ^ 63 := by
          intro hck
          have := hroom hck
          have := hs2 hck
          constructor <;> omega
        split
        · exact ⟨by simp, by simp⟩
        · split
          · exact ⟨by simp, by simp⟩
          · refine ⟨finishPage_noPanic _ _ _ _ _, fun p hp => ⟨?_, hroom'⟩⟩
            simp only [List.length_drop]
            omega

theorem nextFuel_safe (hs : SaneCodec codec) (ck : Bool) (fuel : Nat) (r : PageReader)
    (hf : r.reader.length < fuel) (hroom : Room ck r fuel) :
    (PageReader.nextFuel codec ck fuel r).1 ≠ some .panic := by
  induction fuel generalizing r with
  | zero => omega
  | succ fuel ih =>
    rw [PageReader.nextFuel]
    rw [nextPage]
    split
    · rename_i heq
      split at heq
      · simp only [Prod.mk.injEq] at heq; simp
      · simp at heq
    · rename_i page r' heq
      split at heq
      · simp at heq
      · have hb := buildPage_safe hs ck { r with scratch := [] } fuel hroom
        simp only [Prod.mk.injEq, Option.some.injEq] at heq
        obtain ⟨h1, h2⟩ := heq
        rw [h1, h2] at hb
        split
        · simp only [ne_eq, Option.some.injEq]
          exact hb.1
        · rename_i hw
          have hok : ∃ p, page = .ok p := by
            cases page with
            | ok p => exact ⟨p, rfl⟩
            | err e => simp [PageReader.wants] at hw
            | panic => simp [PageReader.wants] at hw
          obtain ⟨p, hp⟩ := hok
          have h3 := hb.2 p hp
          refine ih { r' with scratch := [] } ?_ h3.2
          have := h3.1
          simp only at this ⊢
          omega

/-! ### The stream -/

/-- The stream and the reader agree as long as the reader reports no error. -/
theorem stream_nextFuel (ck : Bool) (fuel : Nat) (r q : PageReader)
    (hq : q = { r with scratch := q.scratch, reserved := q.reserved }) :
    ((PageReader.nextFuel codec ck fuel r).1 = none →
      (PageStream.nextFuel codec ck fuel q).1 = none ∧
      (PageStream.nextFuel codec ck fuel q).2.failed = false ∧
      (PageStream.nextFuel codec ck fuel q).2.inner.reader =
        (PageReader.nextFuel codec ck fuel r).2.reader) ∧
    (∀ p, (PageReader.nextFuel codec ck fuel r).1 = some (.ok p) →
      (PageStream.nextFuel codec ck fuel q).1 = some (.ok p) ∧
      (PageStream.nextFuel codec ck fuel q).2.failed = false ∧
      (PageStream.nextFuel codec ck fuel q).2.inner =
        { (PageReader.nextFuel codec ck fuel r).2 with
            scratch := (PageStream.nextFuel codec ck fuel q).2.inner.scratch
            reserved := (PageStream.nextFuel codec ck fuel q).2.inner.reserved }) := by
  induction fuel generalizing r q with
  | zero => exact ⟨by simp [PageReader.nextFuel], by simp [PageReader.nextFuel]⟩
  | succ fuel ih =>
    rw [hq]
    rw [PageReader.nextFuel, PageStream.nextFuel]
    simp only
    rw [nextPage]
    by_cases ht : r.totalNumValues.toInt ≤ r.seenNumValues.toInt
    · simp only [if_pos ht]
      exact ⟨fun _ => ⟨trivial, trivial, trivial⟩, by simp⟩
    · simp only [if_neg ht]
      unfold buildPage
      simp only
      generalize codec.parse r.maxPageSize r.reader = res
      obtain ⟨res, rest⟩ := res
      cases res with
      | err e => simp [PageReader.wants]
      | panic => simp [PageReader.wants]
      | ok header =>
        simp only
        cases hg : getPageHeader header with
        | err e => simp [PageReader.wants]
        | panic => simp [PageReader.wants]
        | ok dh =>
          have hv := (getPageHeader_iff header dh).1 hg
          simp only
          cases addI64 ck r.seenNumValues (headerValues dh) with
          | err e => simp [PageReader.wants]
          | panic => simp [PageReader.wants]
          | ok s =>
            simp only
            cases toUsize header.compressedPageSize with
            | err e => simp [PageReader.wants]
            | panic => simp [PageReader.wants]
            | ok k =>
              simp only
              by_cases hm : r.maxPageSize < k
              · simp [if_pos hm, PageReader.wants]
              · simp only [if_neg hm]
                by_cases hlen : (rest.take k).length = k
                · simp only [hlen, ne_eq, not_true_eq_false, if_false]
                  cases hfin : finishPage header (rest.take k) r.compression r.descriptor none with
                  | err e => simp [PageReader.wants]
                  | panic => simp [PageReader.wants]
                  | ok p =>
                    have hdh := finishPage_header hfin hv
                    subst hdh
                    cases p with
                    | data d =>
                      simp only [PageReader.wants, dataHeaderOf]
                      by_cases hskip : r.pagesFilter r.descriptor d.header = true
                      · simp only [hskip, if_true, Bool.not_true, Bool.false_eq_true, if_false]
                        refine ⟨by simp, fun p' hp' => ?_⟩
                        refine ⟨hp', trivial, trivial⟩
                      · simp only [Bool.not_eq_true] at hskip
                        simp only [hskip, Bool.not_false, if_true, Bool.false_eq_true, if_false]
                        exact ih _ _ rfl
                    | dict d =>
                      simp only [PageReader.wants, dataHeaderOf, if_true, Bool.false_eq_true, if_false]
                      refine ⟨by simp, fun p' hp' => ?_⟩
                      refine ⟨hp', trivial, trivial⟩
                · simp only [ne_eq, hlen, not_false_eq_true, if_true]
                  simp [PageReader.wants]

/-! ### The indexed reader -/

theorem readPageAt_ok {limit : Thrift.PageHeader → Nat} (hl : LawfulCodec codec limit)
    {file : List Byte} {start length : Nat} {p : CompressedPage}
    (h : region file start length = pageBytes codec p) (hlen : length < 2 ^ 63)
    (hlim : limit (headerOf p) ≤ 1024 * 1024) :
    readPageAt codec file start length = .ok (headerOf p, p.buffer) := by
  rw [region] at h
  rw [readPageAt, if_neg (by omega)]
  simp only [h, pageBytes, hl.roundtrip _ _ _ hlim]

theorem readPage_at {limit : Thrift.PageHeader → Nat} (hl : LawfulCodec codec limit)
    {r : IndexedReader} {loc : FilteredPage} {p : CompressedPage}
    (h : At codec limit r.compression r.descriptor r.file loc.start loc.length p) :
    r.readPage codec loc = .ok (readSelected loc.selectedRows p) := by
  rw [IndexedReader.readPage, readPageAt_ok hl h.bytes h.length h.limit]
  simp only [Res.ok_bind]
  rw [finishPage_headerOf' _ h.sizes h.compression h.descriptor]
  cases p <;> rfl

theorem readDictPage_at {limit : Thrift.PageHeader → Nat} (hl : LawfulCodec codec limit)
    {c : Compression} {d : Descriptor} {file : List Byte} {start length : Nat} {q : CompressedDictPage}
    (h : At codec limit c d file start length (.dict q)) :
    readDictPage codec file start length c d = .ok (readBack (.dict q)) := by
  rw [readDictPage, readPageAt_ok hl h.bytes h.length h.limit]
  simp only [Res.ok_bind]
  rw [finishPage_headerOf' _ h.sizes h.compression h.descriptor]
  rfl

/-- The pages to deliver: those with a non-empty selection, with it. -/
def selected : List (FilteredPage × CompressedPage) → List CompressedPage
  | [] => []
  | (loc, p) :: rest =>
    if loc.selectedRows = [] then selected rest else readSelected loc.selectedRows p :: selected rest

theorem selected_eq (pairs : List (FilteredPage × CompressedPage)) :
    selected pairs = (pairs.filter fun x => x.1.selectedRows ≠ []).map
      fun x => readSelected x.1.selectedRows x.2 := by
  induction pairs with
  | nil => rfl
  | cons x pairs ih =>
    obtain ⟨loc, p⟩ := x
    by_cases h : loc.selectedRows = [] <;> simp [selected, h, ih]

theorem nextData_pulls {limit : Thrift.PageHeader → Nat} (hl : LawfulCodec codec limit) (ck : Bool)
    (pairs : List (FilteredPage × CompressedPage)) (r : IndexedReader)
    (hr : r.maybeDict = false)
    (h : ∀ x ∈ pairs, At codec limit r.compression r.descriptor r.file x.1.start x.1.length x.2) :
    (r.nextData codec (pairs.map (·.1)) = (none, { r with pages := [] }) ∧ selected pairs = []) ∨
    ∃ p rest, r.nextData codec (pairs.map (·.1)) =
      (some (.ok p), { r with pages := rest.map (·.1) }) ∧ selected pairs = p :: selected rest ∧
      (∀ x ∈ rest, x ∈ pairs) ∧ rest.length < pairs.length := by
  induction pairs with
  | nil => exact Or.inl ⟨rfl, rfl⟩
  | cons x pairs ih =>
    obtain ⟨loc, p⟩ := x
    simp only [List.map_cons, IndexedReader.nextData, selected, List.isEmpty_iff]
    by_cases hrows : loc.selectedRows = []
    · simp only [if_pos hrows]
      rcases ih (fun x hx => h x (List.mem_cons_of_mem _ hx)) with h1 | ⟨p, rest, h1, h2, h3, h4⟩
      · exact Or.inl h1
      · exact Or.inr ⟨p, rest, h1, h2, fun x hx => List.mem_cons_of_mem _ (h3 x hx), by
          simp only [List.length_cons]; omega⟩
    · simp only [if_neg hrows]
      refine Or.inr ⟨_, pairs, ?_, rfl, fun x hx => List.mem_cons_of_mem _ hx, by simp⟩
      rw [readPage_at hl (h (loc, p) (by simp))]

theorem data_pulls {limit : Thrift.PageHeader → Nat} (hl : LawfulCodec codec limit) (ck : Bool)
    (n : Nat) (pairs : List (FilteredPage × CompressedPage)) (hn : pairs.length ≤ n)
    (r : IndexedReader) (hr : r.maybeDict = false) (hp : r.pages = pairs.map (·.1))
    (h : ∀ x ∈ pairs, At codec limit r.compression r.descriptor r.file x.1.start x.1.length x.2) :
    Pulls (IndexedReader.next codec ck) r ((selected pairs).map .ok) { r with pages := [] } := by
  induction n generalizing pairs r with
  | zero =>
    obtain rfl : pairs = [] := List.length_eq_zero_iff.1 (by omega)
    refine .done ?_
    cases r
    simp only at hr hp
    subst hr hp
    rfl
  | succ n ih =>
    have hnext : IndexedReader.next codec ck r = r.nextData codec (pairs.map (·.1)) := by
      rw [IndexedReader.next, hr, hp]; rfl
    rcases nextData_pulls hl ck pairs r hr h with ⟨h1, h2⟩ | ⟨p, rest, h1, h2, h3, h4⟩
    · rw [h2]
      exact .done (by rw [hnext, h1])
    · rw [h2]
      refine .item (by rw [hnext, h1]) ?_
      exact ih rest (by omega) { r with pages := rest.map (·.1) } hr rfl (fun x hx => h x (h3 x hx))

theorem stream_failed {codec : Codec Thrift.PageHeader} (ck : Bool) (fuel : Nat) (r : PageReader) (e : Err)
    (he : (PageStream.nextFuel codec ck fuel r).1 = some (.err e)) :
    (PageStream.nextFuel codec ck fuel r).2.failed = true := by
  induction fuel generalizing r with
  | zero => rfl
  | succ fuel ih =>
    revert he
    rw [PageStream.nextFuel]
    dsimp only
    repeat' split
    all_goals try dsimp only
    all_goals first
      | (intro _; rfl)
      | (intro h; cases h; done)
      | exact ih _

end Pq
