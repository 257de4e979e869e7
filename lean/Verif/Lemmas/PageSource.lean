import Verif.Lemmas.Source
import Verif.Spec.PageSource
/-
Lemmas relating the functions on a reader (`Model/PageSource.lean`) to those on the bytes of the file.
-/
namespace Pq

open Spec

variable {σ α T : Type} {v : SourceView σ} {i : Input σ} {file : List Byte}

/-- What `read_to_end` gives, and where it leaves the reader. -/
theorem readToEnd_pos (h : LawfulInput i v file) (fuel limit : Nat) (hfuel : limit ≤ fuel)
    (acc : List Byte) (s : σ) :
    (((i.readToEnd fuel limit acc) s).1 = .ok (acc ++ (file.drop (v.pos s)).take limit) ∧
      v.failed ((i.readToEnd fuel limit acc) s).2 = v.failed s ∧
      file.drop (v.pos ((i.readToEnd fuel limit acc) s).2) = (file.drop (v.pos s)).drop limit) ∨
    (((i.readToEnd fuel limit acc) s).1 = .err .oos ∧
      v.failed ((i.readToEnd fuel limit acc) s).2 = true) := by
  rcases readToEnd_spec h fuel limit hfuel acc s with ⟨h1, h2⟩ | h1
  · refine .inl ⟨h1, h2, ?_⟩
    clear h2
    induction fuel generalizing limit acc s with
    | zero =>
      obtain rfl : limit = 0 := by omega
      simp [Input.readToEnd, Pure.pure, IoM.pure]
    | succ fuel ih =>
      rw [Input.readToEnd] at h1 ⊢
      split at h1
      · next h0 => subst h0; simp [Pure.pure, IoM.pure]
      · next h0 =>
        rw [if_neg h0]
        simp only [IoM.bind_at, IoM.bind, Source.get] at h1 ⊢
        have hb := h.buffer acc.length
        cases hr : i.source.read s (min limit (i.buffer acc.length)) with
        | mk b s' =>
          rw [hr] at h1
          cases b with
          | none => cases h1
          | some b =>
            obtain ⟨k1, k2, k3, k4⟩ := h.source.read_ok _ _ _ _ hr
            simp only at h1 ⊢
            have hlen : b.length ≤ min limit (i.buffer acc.length) := by
              have := k1.length_le
              simp only [List.length_take] at this
              omega
            split at h1
            · next hnil =>
              rw [if_pos hnil]
              have : file.length ≤ v.pos s := by
                rcases k2 hnil with h | h
                · omega
                · exact h
              subst hnil
              simp only [Pure.pure, IoM.pure, k3, List.length_nil, Nat.add_zero]
              rw [List.drop_eq_nil_of_le this]
              simp
            · next hnil =>
              rw [if_neg hnil]
              have hpos : 0 < b.length := List.length_pos_iff.2 hnil
              rw [ih (limit - b.length) (by omega) (acc ++ b) s' ?_, k3, List.drop_drop, List.drop_drop]
              · congr 1; omega
              · rcases readToEnd_spec h fuel (limit - b.length) (by omega) (acc ++ b) s' with ⟨q, -⟩ | ⟨q, -⟩
                · exact q
                · rw [q] at h1; cases h1
  · exact .inr h1

/-- What `read_exact` gives. -/
theorem exact_spec (h : LawfulInput i v file) (fuel n : Nat) (hfuel : n ≤ fuel) (acc : List Byte) (s : σ) :
    (n ≤ (file.drop (v.pos s)).length ∧ (i.exact fuel n acc s).1 = .ok (acc ++ (file.drop (v.pos s)).take n) ∧
      v.failed (i.exact fuel n acc s).2 = v.failed s ∧
      file.drop (v.pos (i.exact fuel n acc s).2) = (file.drop (v.pos s)).drop n) ∨
    ((file.drop (v.pos s)).length < n ∧ (i.exact fuel n acc s).1 = .err .oos ∧
      v.failed (i.exact fuel n acc s).2 = v.failed s) ∨
    ((i.exact fuel n acc s).1 = .err .oos ∧ v.failed (i.exact fuel n acc s).2 = true) := by
  induction fuel generalizing n acc s with
  | zero =>
    obtain rfl : n = 0 := by omega
    exact .inl ⟨by omega, by simp [Input.exact, Pure.pure, IoM.pure], rfl, by
      simp [Input.exact, Pure.pure, IoM.pure]⟩
  | succ fuel ih =>
    rw [Input.exact]
    split
    · next h0 =>
      subst h0
      exact .inl ⟨by omega, by simp [Pure.pure, IoM.pure], rfl, by simp [Pure.pure, IoM.pure]⟩
    · next h0 =>
      simp only [IoM.bind_at, IoM.bind, Source.get]
      cases hr : i.source.read s n with
      | mk b s' =>
        cases b with
        | none => exact .inr (.inr ⟨rfl, h.source.read_err _ _ _ hr⟩)
        | some b =>
          obtain ⟨k1, k2, k3, k4⟩ := h.source.read_ok _ _ _ _ hr
          simp only
          split
          · next hnil =>
            have : file.length ≤ v.pos s := by
              rcases k2 hnil with h | h
              · omega
              · exact h
            exact .inr (.inl ⟨by rw [List.length_drop]; omega, rfl, k4⟩)
          · next hnil =>
            have hpos : 0 < b.length := List.length_pos_iff.2 hnil
            have hpre : b <+: file.drop (v.pos s) := k1.trans (List.take_prefix _ _)
            have hle := hpre.length_le
            have hbn : b.length ≤ n := by
              have := k1.length_le
              simp only [List.length_take] at this
              omega
            have hb : b = (file.drop (v.pos s)).take b.length := List.prefix_iff_eq_take.1 hpre
            have hd : file.drop (v.pos s') = (file.drop (v.pos s)).drop b.length := by
              rw [k3, List.drop_drop]
            have hlen : (file.drop (v.pos s')).length = (file.drop (v.pos s)).length - b.length := by
              rw [hd, List.length_drop]
            rcases ih (n - b.length) (by omega) (acc ++ b) s' with ⟨q1, q2, q3, q4⟩ | ⟨q1, q2, q3⟩ | q
            · refine .inl ⟨by omega, ?_, q3.trans k4, ?_⟩
              · rw [q2, List.append_assoc]
                congr 2
                rw [hd]
                conv_lhs => rw [hb]
                have := List.take_append_drop b.length ((file.drop (v.pos s)).take n)
                rw [List.take_take, List.drop_take, Nat.min_eq_left hbn] at this
                rw [← hb] at this ⊢
                exact this
              · rw [q4, hd, List.drop_drop]
                congr 1; omega
            · exact .inr (.inl ⟨by omega, q2, q3.trans k4⟩)
            · exact .inr (.inr q)

/-- What a protocol makes of a reader. -/
theorem readFrom_spec (h : LawfulInput i v file) {p : Protocol T} (hp : LawfulProtocol p) (max fuel : Nat)
    (acc : List Byte) (hacc : Asked (p.asks max) acc) (s : σ)
    (hfuel : (file.drop (v.pos s)).length < fuel) :
    ((p.readFrom i max fuel acc s).1 = .err .oos ∧ v.failed (p.readFrom i max fuel acc s).2 = true) ∨
    (v.failed (p.readFrom i max fuel acc s).2 = v.failed s ∧
      (p.readFrom i max fuel acc s).1 = (p.codec.parse max (acc ++ file.drop (v.pos s))).1 ∧
      ∀ x, (p.readFrom i max fuel acc s).1 = .ok x →
        file.drop (v.pos (p.readFrom i max fuel acc s).2) =
          (p.codec.parse max (acc ++ file.drop (v.pos s))).2) := by
  induction fuel generalizing acc s with
  | zero => omega
  | succ fuel ih =>
    rw [Protocol.readFrom]
    split
    · next h0 =>
      obtain ⟨e1, e2⟩ := hp.enough max acc hacc h0 (file.drop (v.pos s))
      exact .inr ⟨rfl, e1.symm, fun x hx => (e2 x hx).symm⟩
    · next h0 =>
      simp only [IoM.bind_at, IoM.bind]
      have hex := exact_spec h (p.asks max acc) (p.asks max acc) (Nat.le_refl _) [] s
      revert hex
      generalize i.exact (p.asks max acc) (p.asks max acc) [] s = res
      intro hex
      obtain ⟨b, s'⟩ := res
      rcases hex with ⟨q1, q2, q3, q4⟩ | ⟨q1, q2, q3⟩ | ⟨q1, q2⟩
      · simp only [List.nil_append] at q2 q3 q4
        subst q2
        simp only
        have hl : ((file.drop (v.pos s)).take (p.asks max acc)).length = p.asks max acc := by
          rw [List.length_take]; omega
        have hcat : acc ++ (file.drop (v.pos s)).take (p.asks max acc) ++ file.drop (v.pos s') =
            acc ++ file.drop (v.pos s) := by
          rw [q4, List.append_assoc, List.take_append_drop]
        have := ih (acc ++ (file.drop (v.pos s)).take (p.asks max acc)) (.more hacc h0 hl) s' (by
          rw [q4, List.length_drop]; omega)
        rw [hcat, q3] at this
        exact this
      · simp only at q2 q3
        subst q2
        exact .inr ⟨q3, (hp.short max acc _ hacc q1).symm, fun x hx => by cases hx⟩
      · simp only at q1 q2
        subst q1
        exact .inl ⟨rfl, q2⟩

/-- The page reader on the bytes that are left. -/
def PageReader.onBytes (v : SourceView σ) (file : List Byte) (r : PageReader) (s : σ) : PageReader :=
  { r with reader := file.drop (v.pos s) }

theorem takeToEnd_pos (h : LawfulInput i v file) (n : Nat) (s : σ) :
    ((i.takeToEnd n s).1 = .ok ((file.drop (v.pos s)).take n) ∧
      v.failed (i.takeToEnd n s).2 = v.failed s ∧
      file.drop (v.pos (i.takeToEnd n s).2) = (file.drop (v.pos s)).drop n) ∨
    ((i.takeToEnd n s).1 = .err .oos ∧ v.failed (i.takeToEnd n s).2 = true) := by
  have := readToEnd_pos h n n (Nat.le_refl _) [] s
  rwa [List.nil_append] at this

theorem buildPage_from (h : LawfulInput i v file) {p : Protocol Thrift.PageHeader} (hp : LawfulProtocol p)
    (ck : Bool) (calls : Nat) (hcalls : file.length < calls) (r : PageReader) (s : σ) :
    let x := buildPageFrom i p ck calls r s
    let y := buildPage p.codec ck (r.onBytes v file s)
    (x.1 = .err .oos ∧ v.failed x.2.2 = true) ∨
    (v.failed x.2.2 = v.failed s ∧ x.1 = y.1 ∧ ∀ pg, x.1 = .ok pg → y.2 = x.2.1.onBytes v file x.2.2) := by
  intro x y
  have hr := readFrom_spec h hp r.maxPageSize calls [] .start s (by rw [List.length_drop]; omega)
  simp only [List.nil_append] at hr
  simp only [x, y, buildPageFrom, buildPage]
  revert hr
  generalize p.readFrom i r.maxPageSize calls [] s = res
  obtain ⟨res, s1⟩ := res
  have hpe : p.codec.parse (r.onBytes v file s).maxPageSize (r.onBytes v file s).reader =
      p.codec.parse r.maxPageSize (file.drop (v.pos s)) := rfl
  rw [hpe]
  generalize p.codec.parse r.maxPageSize (file.drop (v.pos s)) = parsed
  obtain ⟨parsed, rest⟩ := parsed
  intro hr
  simp only at hr
  rcases hr with ⟨rfl, h2⟩ | ⟨h1, rfl, h3⟩
  · exact .inl ⟨rfl, h2⟩
  · cases res with
    | err e => exact .inr ⟨h1, rfl, fun _ h => by cases h⟩
    | panic => exact .inr ⟨h1, rfl, fun _ h => by cases h⟩
    | ok header =>
      have h3 := h3 header rfl
      subst h3
      simp only [PageReader.onBytes]
      cases getPageHeader header with
      | err e => exact .inr ⟨h1, rfl, fun _ h => by cases h⟩
      | panic => exact .inr ⟨h1, rfl, fun _ h => by cases h⟩
      | ok dataHeader =>
        simp only
        cases addI64 ck r.seenNumValues (headerValues dataHeader) with
        | err e => exact .inr ⟨h1, rfl, fun _ h => by cases h⟩
        | panic => exact .inr ⟨h1, rfl, fun _ h => by cases h⟩
        | ok seen =>
          simp only
          cases toUsize header.compressedPageSize with
          | err e => exact .inr ⟨h1, rfl, fun _ h => by cases h⟩
          | panic => exact .inr ⟨h1, rfl, fun _ h => by cases h⟩
          | ok readSize =>
            simp only
            by_cases hm : r.maxPageSize < readSize
            · simp only [hm, ↓reduceIte]
              exact .inr ⟨h1, trivial, fun _ h => by cases h⟩
            · simp only [hm, ↓reduceIte]
              have ht := takeToEnd_pos h readSize s1
              revert ht
              generalize i.takeToEnd readSize s1 = taken
              obtain ⟨taken, s2⟩ := taken
              intro ht
              simp only at ht
              rcases ht with ⟨rfl, t2, t3⟩ | ⟨rfl, t2⟩
              · simp only
                rw [← t3]
                by_cases hb : ((file.drop (v.pos s1)).take readSize).length = readSize
                · simp only [hb, ne_eq, not_true_eq_false, ↓reduceIte]
                  exact .inr ⟨t2.trans h1, trivial, fun _ _ => trivial⟩
                · simp only [hb, ne_eq, not_false_eq_true, ↓reduceIte]
                  exact .inr ⟨t2.trans h1, trivial, fun _ h => by cases h⟩
              · exact .inl ⟨rfl, t2⟩

theorem next_from (h : LawfulInput i v file) {p : Protocol Thrift.PageHeader} (hp : LawfulProtocol p)
    (ck : Bool) (calls : Nat) (hcalls : file.length < calls) (fuel : Nat) (r : PageReader) (s : σ) :
    let x := PageReader.nextFuelFrom i p ck calls fuel (r, s)
    let y := PageReader.nextFuel p.codec ck fuel (r.onBytes v file s)
    (x.1 = some (.err .oos) ∧ v.failed x.2.2 = true) ∨
    (v.failed x.2.2 = v.failed s ∧ x.1 = y.1 ∧ ∀ pg, x.1 = some (.ok pg) → y.2 = x.2.1.onBytes v file x.2.2) := by
  induction fuel generalizing r s with
  | zero => exact .inr ⟨rfl, rfl, fun _ h => by cases h⟩
  | succ fuel ih =>
    intro x y
    simp only [x, y, PageReader.nextFuelFrom, PageReader.nextFuel, nextPage]
    by_cases hv : r.totalNumValues.toInt ≤ r.seenNumValues.toInt
    · rw [if_pos hv, if_pos (show (r.onBytes v file s).totalNumValues.toInt ≤
        (r.onBytes v file s).seenNumValues.toInt from hv)]
      exact .inr ⟨rfl, rfl, fun _ h => by cases h⟩
    · rw [if_neg hv, if_neg (show ¬ (r.onBytes v file s).totalNumValues.toInt ≤
        (r.onBytes v file s).seenNumValues.toInt from hv)]
      have hb := buildPage_from h hp ck calls hcalls { r with scratch := [] } s
      rw [show ({ r.onBytes v file s with scratch := [] } : PageReader) =
        ({ r with scratch := [] } : PageReader).onBytes v file s from rfl]
      revert hb
      generalize buildPageFrom i p ck calls { r with scratch := [] } s = b
      generalize buildPage p.codec ck (({ r with scratch := [] } : PageReader).onBytes v file s) = b'
      obtain ⟨pg, r1, s1⟩ := b
      obtain ⟨pg', r1'⟩ := b'
      intro hb
      simp only at hb ⊢
      rcases hb with ⟨rfl, h2⟩ | ⟨h1, rfl, h3⟩
      · exact .inl ⟨rfl, h2⟩
      · cases pg with
        | err e => exact .inr ⟨h1, rfl, fun _ h => by cases h⟩
        | panic => exact .inr ⟨h1, rfl, fun _ h => by cases h⟩
        | ok pg =>
          have h3 := h3 pg rfl
          subst h3
          have hw : (r1.onBytes v file s1).wants (.ok pg) = r1.wants (.ok pg) := by
            cases pg <;> rfl
          rw [hw]
          by_cases hwant : r1.wants (.ok pg) = true
          · rw [if_pos hwant, if_pos hwant]
            exact .inr ⟨h1, rfl, fun _ _ => rfl⟩
          · rw [if_neg hwant, if_neg hwant]
            have := ih { r1 with scratch := [] } s1
            rw [h1] at this
            exact this

/-- More fuel than bytes makes no difference. -/
theorem nextFuel_enough {codec : Codec Thrift.PageHeader} (hs : SaneCodec codec) (ck : Bool)
    (fuel fuel' : Nat) (r : PageReader) (h : r.reader.length < fuel) (h' : r.reader.length < fuel') :
    PageReader.nextFuel codec ck fuel r = PageReader.nextFuel codec ck fuel' r := by
  induction fuel generalizing fuel' r with
  | zero => omega
  | succ fuel ih =>
    cases fuel' with
    | zero => omega
    | succ fuel' =>
      simp only [PageReader.nextFuel, nextPage]
      by_cases hv : r.totalNumValues.toInt ≤ r.seenNumValues.toInt
      · rw [if_pos hv]
      · rw [if_neg hv]
        have hlen : ∀ pg, (buildPage codec ck { r with scratch := [] }).1 = .ok pg →
            (buildPage codec ck { r with scratch := [] }).2.reader.length < r.reader.length := by
          intro pg hpg
          rw [buildPage] at hpg ⊢
          have hpro := hs.progress r.maxPageSize r.reader
          simp only at hpg ⊢
          revert hpro
          revert hpg
          generalize codec.parse r.maxPageSize r.reader = parsed
          obtain ⟨parsed, rest⟩ := parsed
          intro hpg hpro
          cases parsed with
          | err e => cases hpg
          | panic => cases hpg
          | ok header =>
            have hpro := hpro header rfl
            simp only at hpg hpro ⊢
            cases hg : getPageHeader header with
            | err e => rw [hg] at hpg; cases hpg
            | panic => rw [hg] at hpg; cases hpg
            | ok dh =>
              rw [hg] at hpg
              simp only at hpg ⊢
              cases ha : addI64 ck r.seenNumValues (headerValues dh) with
              | err e => exact hpro
              | panic => exact hpro
              | ok seen =>
                simp only
                cases toUsize header.compressedPageSize with
                | err e => exact hpro
                | panic => exact hpro
                | ok n =>
                  simp only
                  split
                  · exact hpro
                  · split
                    · simp only [List.length_drop]; omega
                    · simp only [List.length_drop]; omega
        revert hlen
        generalize buildPage codec ck { r with scratch := [] } = b
        obtain ⟨pg, r1⟩ := b
        intro hlen
        simp only at hlen ⊢
        split
        · rfl
        · next hw =>
          cases pg with
          | err e => exact absurd rfl hw
          | panic => exact absurd rfl hw
          | ok pg =>
            have := hlen pg rfl
            exact ih fuel' { r1 with scratch := [] } (by simp only; omega) (by simp only; omega)

theorem stream_from (h : LawfulInput i v file) {p : Protocol Thrift.PageHeader} (hp : LawfulProtocol p)
    (ck : Bool) (calls : Nat) (hcalls : file.length < calls) (fuel : Nat) (r : PageReader) (s : σ) :
    let x := PageStream.nextFuelFrom i p ck calls fuel (r, s)
    let y := PageStream.nextFuel p.codec ck fuel (r.onBytes v file s)
    (x.1 = some (.err .oos) ∧ v.failed x.2.2 = true) ∨
    (v.failed x.2.2 = v.failed s ∧ x.1 = y.1 ∧ x.2.1.failed = y.2.failed ∧
      ∀ pg, x.1 = some (.ok pg) → y.2.inner = x.2.1.inner.onBytes v file x.2.2) := by
  induction fuel generalizing r s with
  | zero => exact .inr ⟨rfl, rfl, rfl, fun _ h => by cases h⟩
  | succ fuel ih =>
    intro x y
    simp only [x, y, PageStream.nextFuelFrom, PageStream.nextFuel]
    by_cases hv : r.totalNumValues.toInt ≤ r.seenNumValues.toInt
    · rw [if_pos hv, if_pos (show (r.onBytes v file s).totalNumValues.toInt ≤
        (r.onBytes v file s).seenNumValues.toInt from hv)]
      exact .inr ⟨rfl, rfl, rfl, fun _ h => by cases h⟩
    · rw [if_neg hv, if_neg (show ¬ (r.onBytes v file s).totalNumValues.toInt ≤
        (r.onBytes v file s).seenNumValues.toInt from hv)]
      have hr := readFrom_spec h hp r.maxPageSize calls [] .start s (by rw [List.length_drop]; omega)
      simp only [List.nil_append] at hr
      revert hr
      generalize p.readFrom i r.maxPageSize calls [] s = res
      obtain ⟨res, s1⟩ := res
      have hpe : p.codec.parse (r.onBytes v file s).maxPageSize (r.onBytes v file s).reader =
          p.codec.parse r.maxPageSize (file.drop (v.pos s)) := rfl
      rw [hpe]
      generalize p.codec.parse r.maxPageSize (file.drop (v.pos s)) = parsed
      obtain ⟨parsed, rest⟩ := parsed
      intro hr
      simp only at hr
      rcases hr with ⟨rfl, h2⟩ | ⟨h1, rfl, h3⟩
      · exact .inl ⟨rfl, h2⟩
      · cases res with
        | err e => exact .inr ⟨h1, rfl, rfl, fun _ h => by cases h⟩
        | panic => exact .inr ⟨h1, rfl, rfl, fun _ h => by cases h⟩
        | ok header =>
          have h3 := h3 header rfl
          subst h3
          simp only [PageReader.onBytes]
          cases getPageHeader header with
          | err e => exact .inr ⟨h1, rfl, rfl, fun _ h => by cases h⟩
          | panic => exact .inr ⟨h1, rfl, rfl, fun _ h => by cases h⟩
          | ok dataHeader =>
            simp only
            cases addI64 ck r.seenNumValues (headerValues dataHeader) with
            | err e => exact .inr ⟨h1, rfl, rfl, fun _ h => by cases h⟩
            | panic => exact .inr ⟨h1, rfl, rfl, fun _ h => by cases h⟩
            | ok seen =>
              simp only
              cases toUsize header.compressedPageSize with
              | err e => exact .inr ⟨h1, rfl, rfl, fun _ h => by cases h⟩
              | panic => exact .inr ⟨h1, rfl, rfl, fun _ h => by cases h⟩
              | ok readSize =>
                simp only
                have ht := takeToEnd_pos h readSize s1
                revert ht
                generalize i.takeToEnd readSize s1 = taken
                obtain ⟨taken, s2⟩ := taken
                intro ht
                simp only at ht
                cases dataHeader with
                | none =>
                  simp only [Bool.false_eq_true, ↓reduceIte]
                  by_cases hm : r.maxPageSize < readSize
                  · simp only [hm, ↓reduceIte]
                    exact .inr ⟨h1, trivial, trivial, fun _ h => by cases h⟩
                  · simp only [hm, ↓reduceIte]
                    rcases ht with ⟨rfl, t2, t3⟩ | ⟨rfl, t2⟩
                    · simp only
                      rw [← t3]
                      by_cases hb : ((file.drop (v.pos s1)).take readSize).length = readSize
                      · simp only [hb, ne_eq, not_true_eq_false, ↓reduceIte]
                        cases finishPage header ((file.drop (v.pos s1)).take readSize) r.compression
                            r.descriptor none with
                        | ok page => exact .inr ⟨t2.trans h1, rfl, rfl, fun _ _ => rfl⟩
                        | err e => exact .inr ⟨t2.trans h1, rfl, rfl, fun _ h => by cases h⟩
                        | panic => exact .inr ⟨t2.trans h1, rfl, rfl, fun _ h => by cases h⟩
                      · simp only [hb, ne_eq, not_false_eq_true, ↓reduceIte]
                        exact .inr ⟨t2.trans h1, trivial, trivial, fun _ h => by cases h⟩
                    · exact .inl ⟨rfl, t2⟩
                | some dh =>
                  cases hf : r.pagesFilter r.descriptor dh with
                  | true =>
                    simp only [hf, Bool.not_true, Bool.false_eq_true, ↓reduceIte]
                    by_cases hm : r.maxPageSize < readSize
                    · simp only [hm, ↓reduceIte]
                      exact .inr ⟨h1, trivial, trivial, fun _ h => by cases h⟩
                    · simp only [hm, ↓reduceIte]
                      rcases ht with ⟨rfl, t2, t3⟩ | ⟨rfl, t2⟩
                      · simp only
                        rw [← t3]
                        by_cases hb : ((file.drop (v.pos s1)).take readSize).length = readSize
                        · simp only [hb, ne_eq, not_true_eq_false, ↓reduceIte]
                          cases finishPage header ((file.drop (v.pos s1)).take readSize) r.compression
                              r.descriptor none with
                          | ok page => exact .inr ⟨t2.trans h1, rfl, rfl, fun _ _ => rfl⟩
                          | err e => exact .inr ⟨t2.trans h1, rfl, rfl, fun _ h => by cases h⟩
                          | panic => exact .inr ⟨t2.trans h1, rfl, rfl, fun _ h => by cases h⟩
                        · simp only [hb, ne_eq, not_false_eq_true, ↓reduceIte]
                          exact .inr ⟨t2.trans h1, trivial, trivial, fun _ h => by cases h⟩
                      · exact .inl ⟨rfl, t2⟩
                  | false =>
                    simp only [hf, Bool.not_false, ↓reduceIte]
                    rcases ht with ⟨rfl, t2, t3⟩ | ⟨rfl, t2⟩
                    · simp only
                      have := ih { r with seenNumValues := seen } s2
                      simp only [t2, h1, PageReader.onBytes, t3] at this
                      exact this
                    · exact .inl ⟨rfl, t2⟩

/-- More fuel than bytes makes no difference. -/
theorem streamFuel_enough {codec : Codec Thrift.PageHeader} (hs : SaneCodec codec) (ck : Bool)
    (fuel fuel' : Nat) (r : PageReader) (h : r.reader.length < fuel) (h' : r.reader.length < fuel') :
    PageStream.nextFuel codec ck fuel r = PageStream.nextFuel codec ck fuel' r := by
  induction fuel generalizing fuel' r with
  | zero => omega
  | succ fuel ih =>
    cases fuel' with
    | zero => omega
    | succ fuel' =>
      simp only [PageStream.nextFuel]
      by_cases hv : r.totalNumValues.toInt ≤ r.seenNumValues.toInt
      · rw [if_pos hv, if_pos hv]
      · rw [if_neg hv, if_neg hv]
        have hpro := hs.progress r.maxPageSize r.reader
        revert hpro
        generalize codec.parse r.maxPageSize r.reader = parsed
        obtain ⟨parsed, rest⟩ := parsed
        intro hpro
        cases parsed with
        | err e => rfl
        | panic => rfl
        | ok header =>
          have hpro := hpro header rfl
          simp only at hpro ⊢
          cases getPageHeader header with
          | err e => rfl
          | panic => rfl
          | ok dh =>
            simp only
            cases addI64 ck r.seenNumValues (headerValues dh) with
            | err e => rfl
            | panic => rfl
            | ok seen =>
              simp only
              cases toUsize header.compressedPageSize with
              | err e => rfl
              | panic => rfl
              | ok n =>
                simp only
                have hi := ih fuel' { r with reader := rest.drop n, seenNumValues := seen }
                  (by simp only [List.length_drop]; omega) (by simp only [List.length_drop]; omega)
                rw [hi]

/-- Two iterators that go along with each other. -/
theorem items_delivered {τ τ' : Type} {next' : τ' → Option (Res α) × τ'} {next : τ → Option (Res α) × τ}
    {failed : τ' → Bool} {R : τ' → τ → Prop}
    (step : ∀ t' t, R t' t → ((next' t').1 = some (.err .oos) ∧ failed (next' t').2 = true) ∨
      (failed (next' t').2 = failed t' ∧ (next' t').1 = (next t).1 ∧
        ∀ a, (next' t').1 = some (.ok a) → R (next' t').2 (next t).2)) (n : Nat) (t' : τ') (t : τ)
    (h : R t' t) :
    ItemsDelivered (failed t') (failed (items next' n t').2) (items next' n t').1 (items next n t).1 := by
  induction n generalizing t' t with
  | zero => exact .inl ⟨rfl, rfl⟩
  | succ n ih =>
    have hs := step t' t h
    rw [items, items]
    revert hs
    generalize next' t' = x
    generalize next t = y
    obtain ⟨x, t1'⟩ := x
    obtain ⟨y, t1⟩ := y
    intro hs
    simp only at hs
    rcases hs with ⟨rfl, h2⟩ | ⟨h1, rfl, h3⟩
    · refine .inr ⟨h2, 0, ?_, rfl⟩
      cases y with
      | none => simp
      | some y => cases y <;> simp
    · cases x with
      | none => exact .inl ⟨rfl, h1⟩
      | some x =>
        cases x with
        | err e => exact .inl ⟨rfl, h1⟩
        | panic => exact .inl ⟨rfl, h1⟩
        | ok a =>
          have hi := ih t1' t1 (h3 a rfl)
          simp only
          rcases hi with ⟨e1, e2⟩ | ⟨e1, k, e2, e3⟩
          · exact .inl ⟨by rw [e1], e2.trans h1⟩
          · refine .inr ⟨e1, k + 1, by simpa using e2, ?_⟩
            rw [e3]
            rfl

/-! ### The indexed reader -/

theorem Delivers.pageAt (h : LawfulInput i v file) (codec : Codec Thrift.PageHeader) (start length : Nat) :
    Delivers v (readPageAtFrom i codec start length) (readPageAt codec file start length) := by
  rw [readPageAtFrom, readPageAt]
  split
  · intro s
    simp only [IoM.bind_at, IoM.bind, Source.seekTo]
    cases hs : i.source.seek s (.start start) with
    | mk q s' =>
      cases q with
      | none =>
        rcases h.source.seek_err _ _ _ hs with ⟨h1, h2⟩ | h1
        · cases h1
        · exact .inr ⟨rfl, h1⟩
      | some q => exact .inl ⟨rfl, (h.source.seek_ok _ _ _ _ hs).2.2⟩
  · have := Delivers.bind (seek_read h (.start start) length (.ok ((file.drop start).take length)) fun p => rfl)
      (f := fun buffer => IoM.lift (match codec.parse (1024 * 1024) buffer with
        | (.ok header, rest) => .ok (header, rest)
        | (.err e, _) => .err e
        | (.panic, _) => .panic))
      fun buffer _ => Delivers.lift _
    intro s
    have := this s
    simp only [IoM.bind_at, IoM.bind] at this ⊢
    generalize i.source.seekTo (.start start) s = q at this ⊢
    obtain ⟨q, s1⟩ := q
    cases q <;> exact this

theorem Delivers.dictPage (h : LawfulInput i v file) (codec : Codec Thrift.PageHeader) (start length : Nat)
    (c : Compression) (d : Descriptor) :
    Delivers v (readDictPageFrom i codec start length c d) (readDictPage codec file start length c d) := by
  refine Delivers.bind (Delivers.pageAt h codec start length) fun x _ => ?_
  refine Delivers.bind (Delivers.lift _) fun page _ => ?_
  cases page with
  | dict p => exact Delivers.pure _
  | data p => exact Delivers.lift _

theorem Delivers.indexedPage (h : LawfulInput i v file) (codec : Codec Thrift.PageHeader) (r : IndexedReader)
    (page : FilteredPage) :
    Delivers v (r.readPageFrom i codec page) (({ r with file } : IndexedReader).readPage codec page) :=
  Delivers.bind (Delivers.pageAt h codec _ _) fun _ _ => Delivers.lift _

theorem nextData_from (h : LawfulInput i v file) (codec : Codec Thrift.PageHeader) (r : IndexedReader)
    (pages : List FilteredPage) (s : σ) :
    let x := r.nextDataFrom i codec s pages
    let y := ({ r with file } : IndexedReader).nextData codec pages
    y.2 = { x.2.1 with file } ∧ ((x.1 = some (.err .oos) ∧ v.failed x.2.2 = true) ∨
    (v.failed x.2.2 = v.failed s ∧ x.1 = y.1)) := by
  induction pages with
  | nil => exact ⟨rfl, .inr ⟨rfl, rfl⟩⟩
  | cons page rest ih =>
    simp only [IndexedReader.nextDataFrom, IndexedReader.nextData]
    split
    · exact ih
    · have := Delivers.indexedPage h codec r page s
      generalize r.readPageFrom i codec page s = x at this
      obtain ⟨x, s1⟩ := x
      simp only at this ⊢
      refine ⟨trivial, ?_⟩
      rcases this with ⟨rfl, h2⟩ | ⟨rfl, h2⟩
      · exact .inr ⟨h2, rfl⟩
      · exact .inl ⟨rfl, h2⟩

theorem indexed_from (h : LawfulInput i v file) (codec : Codec Thrift.PageHeader) (ck : Bool)
    (r : IndexedReader) (s : σ) :
    let x := IndexedReader.nextFrom i ck codec (r, s)
    let y := IndexedReader.next codec ck ({ r with file } : IndexedReader)
    y.2 = { x.2.1 with file } ∧ ((x.1 = some (.err .oos) ∧ v.failed x.2.2 = true) ∨
    (v.failed x.2.2 = v.failed s ∧ x.1 = y.1)) := by
  simp only [IndexedReader.nextFrom, IndexedReader.next]
  cases hd : r.maybeDict with
  | false =>
    simp only [Bool.false_eq_true, if_false]
    have := nextData_from h codec r r.pages s
    rw [hd] at this
    exact this
  | true =>
    simp only [if_true, IndexedReader.readDictFrom, IndexedReader.readDict]
    have hdata := nextData_from h codec { r with maybeDict := false } r.pages s
    cases hp : r.pages.head? with
    | none => exact hdata
    | some page =>
      simp only
      cases Deser.usub ck page.start r.columnStart with
      | err e => exact ⟨rfl, .inr ⟨rfl, rfl⟩⟩
      | panic => exact ⟨rfl, .inr ⟨rfl, rfl⟩⟩
      | ok length =>
        simp only
        by_cases hl : 0 < length
        · simp only [if_pos hl]
          have := Delivers.dictPage h codec r.columnStart length r.compression r.descriptor s
          generalize readDictPageFrom i codec r.columnStart length r.compression r.descriptor s = x at this
          obtain ⟨x, s1⟩ := x
          simp only at this ⊢
          refine ⟨trivial, ?_⟩
          rcases this with ⟨rfl, h2⟩ | ⟨rfl, h2⟩
          · exact .inr ⟨h2, rfl⟩
          · exact .inl ⟨rfl, h2⟩
        · simp only [if_neg hl]
          exact hdata

/-! ### Indexes and bloom filters -/

theorem Delivers.seekBytes (h : LawfulInput i v file) (start n : Nat) {β : Type} (f : List Byte → Res β) :
    Delivers v (do
      let _ ← i.source.seekTo (.start start)
      let data ← i.takeToEnd n
      IoM.lift (f data)) (f ((file.drop start).take n)) := by
  have := Delivers.bind (seek_read h (.start start) n (.ok ((file.drop start).take n)) fun p => rfl)
    (f := fun data => IoM.lift (f data)) fun data _ => Delivers.lift _
  intro s
  have := this s
  simp only [IoM.bind_at, IoM.bind] at this ⊢
  generalize i.source.seekTo (.start start) s = q at this ⊢
  obtain ⟨q, s1⟩ := q
  cases q <;> exact this

theorem Delivers.columnIndexes (h : LawfulInput i v file) (codec : Codec Thrift.ColumnIndex) (ck : Bool)
    (chunks : List ColumnChunkMetaData) :
    Delivers v (readColumnsIndexesFrom i ck codec chunks) (readColumnsIndexes codec ck file chunks) :=
  Delivers.bind (Delivers.lift _) fun x _ => Delivers.bind (Delivers.lift _) fun length _ =>
    Delivers.seekBytes h x.1 length _

theorem Delivers.pageLocations (h : LawfulInput i v file) (codec : Codec Thrift.OffsetIndex) (ck : Bool)
    (chunks : List ColumnChunkMetaData) :
    Delivers v (readPagesLocationsFrom i ck codec chunks) (readPagesLocations codec ck file chunks) :=
  Delivers.bind (Delivers.lift _) fun x _ => Delivers.bind (Delivers.lift _) fun length _ =>
    Delivers.seekBytes h x.1 length _

/-- The header of a bloom filter and the bytes after it. -/
def Protocol.onBytes (p : Protocol T) (max : Nat) (bytes : List Byte) : Res (T × List Byte) :=
  match p.codec.parse max bytes with
  | (.ok x, rest) => .ok (x, rest)
  | (.err e, _) => .err e
  | (.panic, _) => .panic

theorem Delivers.filter (h : LawfulInput i v file) {p : Protocol Bloom.Header} (hp : LawfulProtocol p)
    (calls : Nat) (hcalls : file.length < calls) (offset : Option I64) :
    Delivers v (Bloom.readFilterFrom i calls p offset)
      (Bloom.readFilter (p.onBytes (2 ^ 64 - 1)) offset file) := by
  cases offset with
  | none => exact Delivers.pure _
  | some offset =>
    intro s
    simp only [Bloom.readFilterFrom, Bloom.readFilter, IoM.bind_at, IoM.bind, Source.seekTo]
    cases hs : i.source.seek s (.start offset.toNat) with
    | mk q s1 =>
      cases q with
      | none =>
        rcases h.source.seek_err _ _ _ hs with ⟨h1, h2⟩ | h1
        · cases h1
        · exact .inr ⟨rfl, h1⟩
      | some q =>
        obtain ⟨k1, k2, k3⟩ := h.source.seek_ok _ _ _ _ hs
        injection k1 with k1
        subst k1
        simp only
        have hr := readFrom_spec h hp (2 ^ 64 - 1) calls [] .start s1 (by rw [List.length_drop]; omega)
        simp only [List.nil_append, k2, k3] at hr
        revert hr
        generalize p.readFrom i (2 ^ 64 - 1) calls [] s1 = res
        obtain ⟨res, s2⟩ := res
        rw [Protocol.onBytes]
        generalize p.codec.parse (2 ^ 64 - 1) (file.drop offset.toNat) = parsed
        obtain ⟨parsed, rest⟩ := parsed
        intro hr
        simp only at hr
        rcases hr with ⟨rfl, h2⟩ | ⟨h1, rfl, h3⟩
        · exact .inr ⟨rfl, h2⟩
        · cases res with
          | err e => exact .inl ⟨rfl, h1⟩
          | panic => exact .inl ⟨rfl, h1⟩
          | ok header =>
            have h3 := h3 header rfl
            subst h3
            simp only [Res.ok_bind]
            split
            · exact .inl ⟨rfl, h1⟩
            · split
              · exact .inl ⟨rfl, h1⟩
              · cases toUsize header.numBytes with
                | err e => exact .inl ⟨rfl, h1⟩
                | panic => exact .inl ⟨rfl, h1⟩
                | ok length =>
                  have ht := takeToEnd_pos h length s2
                  simp only [Res.ok_bind, IoM.bind_at, IoM.bind, IoM.lift]
                  rcases ht with ⟨t1, t2, -⟩ | ht
                  · exact .inl ⟨t1, t2.trans h1⟩
                  · exact .inr ht

end Pq
