import Verif.Lemmas.Pruning
import Verif.Props.ClientSelection
/-
C74: what the statistics of written columns say is true of the values, so that skipping pages and row groups by
them loses nothing.
-/
namespace Pq.Props
open Pq.Spec Pq.Client

/-- **C74** for pages: the statistics in the header of a page made of an array as the client does are read, and what
they say is true of the array: the number of nulls, and the least and greatest number or string. -/
theorem C74_page (cs : Codecs) (ck : Bool) (options : WriteOptions) (opts : CompressionOptions) (d : Descriptor)
    (array : Client.Array) (cp : CompressedPage) (hs : options.writeStatistics = true)
    (h : PageOf cs ck options opts d array cp) :
    ∃ s, pageStatistics cp = .ok (some s) ∧ OfType s d.primitiveType ∧ Summarises [array] s := by
  obtain ⟨v, s, -, -, -, h1, h2, h3⟩ := pageOf_statistics hs h
  refine ⟨s, ?_, h1, h2⟩
  unfold pageStats at h3
  split at h3
  · next e => rw [e, h3]
  · cases h3

/-- A page of two numbers and a null. -/
example : ∃ opts d cp, PageOf toyCodecs true clientOptions opts d (.int32 [some 1#32, none, some 0xFFFFFFFF#32]) cp ∧
    clientOptions.writeStatistics = true := by
  cases client_example_pages with
  | cons h _ =>
    cases h with
    | cons h _ =>
      obtain ⟨opts, hp⟩ := h.pages
      cases hp with
      | cons hp _ => exact ⟨opts, _, _, hp, rfl⟩

/-- **C74** the bounds in the statistics of such a page are items of the array, of any type (int96 included), and
there are some exactly if there are items; the number of distinct items and the deprecated bounds are left out. -/
theorem C74_items (array : Client.Array) (options : WriteOptions) (d : Descriptor) (page : Page)
    (h : arrayToPage array options d = .ok page) (hs : options.writeStatistics = true) :
    ∃ p hd v, page = .data p ∧ p.header = .v1 hd ∧ hd.statistics = some v ∧ v.distinctCount = none ∧
      (∀ b, v.minValue = some b ∨ v.maxValue = some b → some b ∈ arrayItems array) ∧
      (v.minValue.isSome ↔ ∃ b, some b ∈ arrayItems array) ∧ (v.maxValue.isSome ↔ ∃ b, some b ∈ arrayItems array) ∧
      v.min = none ∧ v.max = none :=
  arrayToPage_items array options d page h hs

example : (arrayToPage (.int96 [some 5#96, none]) clientOptions
    (clientPage 0#32 .int96 .optional 1#32 [] []).descriptor).isOk = true ∧
    clientOptions.writeStatistics = true := by decide +kernel

/-- The columns of a file that the client made meet what readers of files ask for. -/
theorem client_columns (cs : Codecs) (ck : Bool) (name : String) (fields : List ParquetType)
    (options : WriteOptions) (arrays : List (List (List Client.Array))) (groups : List (List (List CompressedPage)))
    (hpages : List.Forall₂ (fun ga g => List.Forall₂ (ColumnOf cs ck options) ga
      ((SchemaDescriptor.new name fields).leaves.zip g)) arrays groups)
    (htotal : (arrays.map arrayRows).sum < 2 ^ 63) :
    (∀ g ∈ groups, ∀ c ∈ (SchemaDescriptor.new name fields).leaves.zip g, Readable c) ∧
    (∀ g ∈ groups, GroupRowsKnown ((SchemaDescriptor.new name fields).leaves.zip g)) ∧
    (groups.map fun g => groupRows ((SchemaDescriptor.new name fields).leaves.zip g)).sum < 2 ^ 63 := by
  have hmem : ∀ g ∈ groups, ∃ ga ∈ arrays, List.Forall₂ (ColumnOf cs ck options) ga
      ((SchemaDescriptor.new name fields).leaves.zip g) := fun g hg => Client.forall₂_right hpages hg
  have hsum : (groups.map fun g => groupRows ((SchemaDescriptor.new name fields).leaves.zip g)) =
      arrays.map arrayRows := by
    clear htotal hmem
    induction hpages with
    | nil => rfl
    | cons hc _ ih => rw [List.map_cons, List.map_cons, ih, (client_groupRows hc).1]
  have hle : ∀ ga ∈ arrays, arrayRows ga ≤ (arrays.map arrayRows).sum := by
    intro ga hga
    obtain ⟨l, r, rfl⟩ := List.append_of_mem hga
    simp only [List.map_append, List.map_cons, List.sum_append, List.sum_cons]
    omega
  refine ⟨?_, ?_, by rw [hsum]; exact htotal⟩
  · intro g hg c hc
    obtain ⟨ga, -, hga⟩ := hmem g hg
    obtain ⟨a, -, ha⟩ := Client.forall₂_right hga hc
    exact columnOf_readable ha
  · intro g hg
    obtain ⟨ga, hgm, hga⟩ := hmem g hg
    exact (client_groupRows hga).2 (Nat.lt_of_le_of_lt (hle ga hgm) htotal)

/-- **C74 (partial)** for column chunks: in every file of flat optional columns made of arrays as the client of the
repository does, with statistics, each column chunk that has values has statistics, which are read; what they say is
true of all values of the chunk, and a range of numbers which they exclude has no value of the chunk. Missing:
columns of floating point numbers with NaN and of strings one of which begins another, where the code violates
the claim (`C74_violated`); what is missing in C59. -/
theorem C74_chunk_partial (cs : Codecs) (ck : Bool) (name : String) (fields : List ParquetType)
    (h0 : 0 < fields.length) (h31 : fields.length < 2 ^ 31) (hg : GoodTrees fields)
    (options : WriteOptions) (hs : options.writeStatistics = true) (createdBy : Option String)
    (kv : Option (List Thrift.KeyValue))
    (arrays : List (List (List Client.Array))) (groups : List (List (List CompressedPage))) (n : Nat) (w : FileWriter)
    (h : Finished thriftCodecs ck (SchemaDescriptor.new name fields) options createdBy kv groups n w)
    (hcols : ∀ g ∈ groups, (SchemaDescriptor.new name fields).leaves.length ≤ g.length)
    (hpages : List.Forall₂ (fun ga g => List.Forall₂ (ColumnOf cs ck options) ga
      ((SchemaDescriptor.new name fields).leaves.zip g)) arrays groups)
    (hf : ∀ g ∈ groups, GroupFits thriftCodecs ((SchemaDescriptor.new name fields).leaves.zip g))
    (hlen : w.out.length < 2 ^ 31) (htotal : (arrays.map arrayRows).sum < 2 ^ 63) :
    ∃ fm, readMetadata fileCodec w.out = .ok fm ∧
      List.Forall₂ (fun ga group => List.Forall₂ (fun (as : List Client.Array) (chunk : ColumnChunkMetaData) =>
        as ≠ [] → (as.map Array.len).sum < 2 ^ 63 →
          ∃ s, chunk.statistics = .ok (some (.ok s)) ∧ Summarises as s ∧
            ((∀ v ∈ as.flatMap arrayNumbers, v ≠ none) → ∀ lo hi, mayHold lo hi s = false →
              (as.flatMap arrayItems).filter
                (inRange chunk.columnDescr.descriptor.primitiveType.physicalType lo hi) = []))
        ga group.columns) arrays fm.rowGroups := by
  obtain ⟨hread, hrows, hsum⟩ := client_columns cs ck name fields options arrays groups hpages htotal
  obtain ⟨md, pre, he, hr⟩ := C59_compact_partial ck name fields h0 h31 hg options createdBy kv groups n w h hf
    (by omega) hcols hread hrows hsum
  obtain ⟨fm, h1, -, -, -, -, -, -, h7⟩ := hr (by
    have := congrArg List.length he
    simp only [List.length_append] at this
    omega)
  refine ⟨fm, h1, (forall₂_comp hpages h7).imp ?_⟩
  rintro ga group ⟨g, -, ha, hgr⟩
  refine (forall₂_comp ha hgr.chunks).imp ?_
  rintro as chunk ⟨c, -, hc, hch⟩ hne hlt
  obtain ⟨r, hr1, hr2⟩ := hch.tells.statistics
  obtain ⟨s, rfl, hsm⟩ := columnOf_statistics hs hc hne hlt hr2
  refine ⟨s, hr1, hsm, fun hnan lo hi => mayHold_false as _ ?_ s hsm hnan lo hi⟩
  obtain ⟨opts, hp⟩ := hc.pages
  intro a ha
  obtain ⟨cp, -, hcp⟩ := forall₂_left hp ha
  rw [hch.descriptor]
  exact hcp.1

/-- The example of C70 meets the hypotheses. -/
example :
    (∃ n, Finished thriftCodecs true (SchemaDescriptor.new "s" clientFields) clientOptions (some "me") none
      clientGroups n clientEnd.2) ∧ clientOptions.writeStatistics = true ∧
    (∀ g ∈ clientGroups, clientSchema.leaves.length ≤ g.length) ∧
    List.Forall₂ (fun ga g => List.Forall₂ (ColumnOf toyCodecs true clientOptions) ga
      ((SchemaDescriptor.new "s" clientFields).leaves.zip g)) clientArrays clientGroups ∧
    (∀ g ∈ clientGroups, GroupFits thriftCodecs (clientSchema.leaves.zip g)) ∧
    clientEnd.2.out.length < 2 ^ 31 ∧ (clientArrays.map arrayRows).sum < 2 ^ 63 ∧
    (∀ g ∈ clientArrays, ∀ as ∈ g, as ≠ [] ∧ (as.map Array.len).sum < 2 ^ 63 ∧
      ∀ v ∈ as.flatMap arrayNumbers, v ≠ none) :=
  ⟨client_example, rfl, by decide +kernel, client_example_pages, by decide +kernel, by decide +kernel,
    by decide +kernel, by decide +kernel⟩

/-- **C74 (partial)** for the page index: in every such file the page locations and the column indexes are read;
each entry of an index says what is true of the values of its page. In a column chunk of numbers without NaN and
without empty pages, for every range: the rows of the pages that the index does not exclude, read by their
locations, contain all values in the range, in order. Missing: as for column chunks, and what is missing in C71. -/
theorem C74_search_partial (cs : Codecs) (hcs : Lawful cs) (ck : Bool) (name : String) (fields : List ParquetType)
    (h0 : 0 < fields.length) (h31 : fields.length < 2 ^ 31) (hg : GoodTrees fields)
    (options : WriteOptions) (hs : options.writeStatistics = true) (createdBy : Option String)
    (kv : Option (List Thrift.KeyValue))
    (arrays : List (List (List Client.Array))) (groups : List (List (List CompressedPage))) (n : Nat) (w : FileWriter)
    (h : Finished thriftCodecs ck (SchemaDescriptor.new name fields) options createdBy kv groups n w)
    (hcols : ∀ g ∈ groups, (SchemaDescriptor.new name fields).leaves.length ≤ g.length)
    (hpages : List.Forall₂ (fun ga g => List.Forall₂ (ColumnOf cs ck options) ga
      ((SchemaDescriptor.new name fields).leaves.zip g)) arrays groups)
    (hf : ∀ g ∈ groups, GroupFits thriftCodecs ((SchemaDescriptor.new name fields).leaves.zip g))
    (hlen : w.out.length < 2 ^ 31) (htotal : (arrays.map arrayRows).sum < 2 ^ 63) :
    ∃ fm, readMetadata fileCodec w.out = .ok fm ∧
      List.Forall₂ (fun (x : List (List Client.Array) × List (List CompressedPage)) group => ∃ locations indexes,
          (∀ ck, readPagesLocations offsetIndexCodec ck w.out group.columns = .ok locations) ∧
          (∀ ck, readColumnsIndexes columnIndexCodec ck w.out group.columns = .ok indexes) ∧
          locations.length = x.1.length ∧ indexes.length = x.1.length ∧ group.columns.length = x.1.length ∧
          ∀ (i : Nat) (as : List Client.Array) (pages : List CompressedPage) (chunk : ColumnChunkMetaData)
            (ls : List Thrift.PageLocation) (index : Index), x.1[i]? = some as → x.2[i]? = some pages →
            group.columns[i]? = some chunk → locations[i]? = some ls → indexes[i]? = some index →
            List.Forall₂ (fun a s => Summarises [a] s) as (indexStats index) ∧
            (NumberType chunk.columnDescr.descriptor.primitiveType.physicalType →
              (∀ a ∈ as, 0 < a.len) → (as.map Array.len).sum < 2 ^ 63 →
              (∀ p ∈ pages, (headerCodec.ser (headerOf p)).length ≤ 1024 * 1024) →
              (∀ v ∈ as.flatMap arrayNumbers, v ≠ none) →
              ChunkSearches headerCodec cs ck w.out as chunk ls index)) (arrays.zip groups) fm.rowGroups := by
  obtain ⟨hread, hrows, hsum⟩ := client_columns cs ck name fields options arrays groups hpages htotal
  obtain ⟨fm, h1, h2⟩ := C71_file_partial cs hcs ck name fields h0 h31 hg options createdBy kv arrays groups n w h hcols
    hpages hf hlen htotal
  obtain ⟨fm', g1, g2⟩ := C45_compact_partial ck name fields h0 h31 hg options createdBy kv groups n w h hf hlen hcols
    hread hrows hsum
  rw [h1] at g1
  injection g1 with g1
  subst g1
  obtain ⟨md, pre, he, hr⟩ := C59_compact_partial ck name fields h0 h31 hg options createdBy kv groups n w h hf
    (by omega) hcols hread hrows hsum
  obtain ⟨fm', h3, -, -, -, -, -, -, h7⟩ := hr (by
    have := congrArg List.length he
    simp only [List.length_append] at this
    omega)
  rw [h1] at h3
  injection h3 with h3
  subst h3
  refine ⟨fm, h1, (client_and (client_zip hpages (client_and g2 h7)) h2).imp ?_⟩
  rintro ⟨ga, g⟩ group ⟨⟨ha, ⟨⟨ls', k1, k2⟩, indexes, k3, k4⟩, hgr⟩, -, locations, k5, k6, k7, k8⟩
  have : ls' = locations := by
    have := k1 true
    rw [k5 true] at this
    injection this with this
    exact this.symm
  subst this
  rw [if_pos hs] at k4
  have hl := ha.length_eq
  dsimp only at ha hl k6 k7 k8 ⊢
  refine ⟨ls', indexes, k1, k3, k6, by rw [← k4.length_eq, hl], k7, ?_⟩
  intro i as pages chunk ls index e1 e2 e3 e4 e5
  have hi : i < ((SchemaDescriptor.new name fields).leaves.zip g).length := by
    rw [← hl]; exact (List.getElem?_eq_some_iff.1 e1).1
  obtain ⟨c, hc⟩ : ∃ c, ((SchemaDescriptor.new name fields).leaves.zip g)[i]? = some c :=
    ⟨_, List.getElem?_eq_getElem hi⟩
  have hco := client_at ha e1 hc
  have hch := client_at hgr.chunks hc e3
  have hix := client_at k4 hc e5
  refine ⟨columnOf_index hs hco hix, fun hnt hpos hlt hhd hnan => ?_⟩
  obtain ⟨r1, r2⟩ := columnOf_rows hco
  exact columnOf_searches hs hco hch.descriptor hpos hnan (client_at k2 hc e4 r1 (by rw [r2]; exact hlt)) hix
    (k8 i as pages chunk ls e1 e2 e3 e4 hnt hpos hlt hhd)

/-- The example of C70 meets the hypotheses: its statistics are written, its columns have values and its numbers
are not NaN. -/
example :
    (∃ n, Finished thriftCodecs true (SchemaDescriptor.new "s" clientFields) clientOptions (some "me") none
      clientGroups n clientEnd.2) ∧ Lawful toyCodecs ∧ clientOptions.writeStatistics = true ∧
    (∀ g ∈ clientGroups, clientSchema.leaves.length ≤ g.length) ∧
    List.Forall₂ (fun ga g => List.Forall₂ (ColumnOf toyCodecs true clientOptions) ga
      ((SchemaDescriptor.new "s" clientFields).leaves.zip g)) clientArrays clientGroups ∧
    (∀ g ∈ clientGroups, GroupFits thriftCodecs (clientSchema.leaves.zip g)) ∧
    clientEnd.2.out.length < 2 ^ 31 ∧
    (∀ g ∈ clientGroups, ∀ pages ∈ g, ∀ p ∈ pages, (headerCodec.ser (headerOf p)).length ≤ 1024 * 1024) ∧
    (∀ g ∈ clientArrays, ∀ as ∈ g, as ≠ [] ∧ (∀ a ∈ as, 0 < a.len) ∧ ∀ v ∈ as.flatMap arrayNumbers, v ≠ none) :=
  ⟨client_example, toyCodecs_lawful, rfl, by decide +kernel, client_example_pages, by decide +kernel, by decide +kernel,
    by decide +kernel, by decide +kernel⟩

/-- Statistics of the first column chunk, and what is read of it when searching through the page index. -/
def clientSearch (file : List Byte) (pages : Nat) (lo hi : Int) :
    Res (Option (Res Statistics) × List Client.Array) := do
  let fm ← readMetadata fileCodec file
  match fm.rowGroups.head? with
  | none => .err .oos
  | some group =>
    let locations ← readPagesLocations offsetIndexCodec true file group.columns
    let indexes ← readColumnsIndexes columnIndexCodec true file group.columns
    match group.columns.head?, locations.head?, indexes.head? with
    | some chunk, some ls, some index => do
      let s ← chunk.statistics
      let rows ← computeRows ((indexStats index).map (mayHold lo hi)) ls group.numRows
      let filtered ← selectPages true rows ls group.numRows
      let reader ← IndexedReader.ofColumn file chunk filtered
      let out ← Client.collect true (fun _ => BasicDecompressor.advance toyCodecs true (IndexedReader.next headerCodec true) (0, []))
        (·.current) chunk.columnDescr.descriptor.primitiveType.physicalType (pages + 1) 0
        (BasicDecompressor.new reader) none
      .ok (s, out)
    | _, _, _ => .err .oos

/-- Two pages, searched for numbers from 10 to 11, from 3 to 10 and from 7 to 9: the second is read, both are, and
none is. -/
example : (clientSearch clientIndexed 2 10 11).map' (·.2) = .ok [.int32 [some 10#32, some 11#32]] := by decide +kernel
example : ((clientSearch clientIndexed 2 3 10).map' fun x => x.2.map Array.len) = .ok [7, 2] := by decide +kernel
example : (clientSearch clientIndexed 2 7 9).map' (·.2) = .ok [] := by decide +kernel

/-- Minimum, maximum and nulls of the column chunk. -/
def clientBounds (file : List Byte) : Option (Option (Option Int) × Option (Option Int) × Option I64) :=
  match clientSearch file 2 0 0 with
  | .ok (some (.ok s), _) => some (numMin s, numMax s, s.nullCount)
  | _ => none

example : clientBounds clientIndexed = some (some (some 0), some (some 11), some 1#64) := by decide +kernel

/-- Minimum and maximum of a column chunk of strings. -/
def clientStrings (file : List Byte) : Option (Option (List Byte) × Option (List Byte)) :=
  match clientSearch file 2 0 0 with
  | .ok (some (.ok s), _) => some (bytesMin s, bytesMax s)
  | _ => none

/-- One, NaN and one half. -/
def clientNaN : List Client.Array := [.float [some 0x3f800000#32, some 0x7fc00000#32, some 0x3f000000#32]]

/-- One. -/
def clientOne : Int := (floatVal 8 23 0x3f800000#32).getD 0

/-- "ab" and "a". -/
def clientPrefix : List Client.Array := [.binary [some [0x61#8, 0x62#8], some [0x61#8]]]

/-- **C74 is violated.** A NaN between 1.0 and 0.5 makes 0.5 the maximum: searching for 1.0 finds nothing. The
strings "ab" and "a" get "ab" as minimum and "a" as maximum. -/
theorem C74_violated :
    (clientSearch (clientWrite .float clientNaN).2.out 1 clientOne clientOne).map' (·.2) = .ok [] ∧
    ((clientNaN.flatMap arrayItems).filter (inRange .float clientOne clientOne)).length = 1 ∧
    clientStrings (clientWrite .byteArray clientPrefix).2.out = some (some [0x61#8, 0x62#8], some [0x61#8]) := by
  refine ⟨?_, ?_, ?_⟩ <;> decide +kernel

end Pq.Props
