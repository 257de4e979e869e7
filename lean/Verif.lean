import Verif.Props.Leb128
import Verif.Props.Bitpacked
import Verif.Props.HybridRle
import Verif.Props.Contains
import Verif.Props.Delta
import Verif.Props.Schema
import Verif.Props.Deserialize
import Verif.Props.Types
import Verif.Props.Bloom
import Verif.Props.Intervals
import Verif.Props.Compression
import Verif.Props.Statistics
import Verif.Props.PageIO
import Verif.Props.PageState
import Verif.Props.FileMetadata
import Verif.Props.Writer
import Verif.Props.WholeFile
import Verif.Props.Indexes
import Verif.Props.Selection
import Verif.Props.Reserialise
import Verif.Props.Message
import Verif.Props.Sink
import Verif.Props.Source
import Verif.Model.Client
import Verif.Spec.Allocations
import Verif.Lemmas.Allocations
import Verif.Spec.Client
import Verif.Spec.DeltaParts
import Verif.Spec.DeltaOutcome
import Verif.Lemmas.Client
import Verif.Lemmas.ClientPage
import Verif.Lemmas.ClientRefuse
import Verif.Lemmas.ClientWrite
import Verif.Lemmas.ClientFile
import Verif.Props.Client
import Verif.Model.BasicDecompressor
import Verif.Props.BasicDecompressor
import Verif.Lemmas.ClientSelection
import Verif.Props.ClientSelection
import Verif.Lemmas.DeltaTrunc
import Verif.Lemmas.DeltaTrunc2
import Verif.Lemmas.DeltaSound
import Verif.Lemmas.DeltaChecked
import Verif.Lemmas.DeltaOutcome
import Verif.Lemmas.DeltaOverflow
import Verif.Lemmas.DeltaExact
import Verif.Props.DeltaArbitrary
import Verif.Lemmas.Pruning
import Verif.Props.Pruning
import Verif.Lemmas.Nested
import Verif.Props.Nested
import Verif.Props.LevelEncoding
import Verif.Lemmas.Hash
import Verif.Props.Hash
import Verif.Lemmas.SizeHint
import Verif.Props.SizeHint
import Verif.Lemmas.Arbitrary
import Verif.Props.Arbitrary
import Verif.Lemmas.PageSource
import Verif.Lemmas.ThriftProtocol
import Verif.Props.PageSource
import Verif.Props.Serde
import Verif.Lemmas.ArbitraryFile
import Verif.Props.ArbitraryFile
import Verif.Lemmas.SchemaChecked
import Verif.Props.SchemaChecked
import Verif.Lemmas.ArbitraryIndex
import Verif.Props.ArbitraryIndex
import Verif.Lemmas.Equality
import Verif.Props.Equality
import Verif.Lemmas.RangedStreamer
import Verif.Lemmas.RangedSource
import Verif.Props.RangedStreamer
import Verif.Model.Sidecar
import Verif.Spec.Sidecar
import Verif.Lemmas.Sidecar
import Verif.Props.Sidecar
import Verif.Spec.WriterOutcome
import Verif.Lemmas.WriterOutcome
import Verif.Lemmas.WriterOutcome2
import Verif.Lemmas.WriterOutcome3
import Verif.Props.WriterOutcome
import Verif.Spec.PageSequence
import Verif.Lemmas.PageSequence
import Verif.Lemmas.PageSequence2
import Verif.Props.PageSequence
import Verif.Props.EncodedSize
import Verif.Spec.ErrorKinds
import Verif.Lemmas.ErrorKinds
import Verif.Lemmas.ErrorKindsMessage
import Verif.Props.ErrorKinds
import Verif.Model.ClientRead
import Verif.Spec.ClientRead
import Verif.Lemmas.ClientRead
import Verif.Props.ClientRead
import Verif.Props.Padding
import Verif.Props.Moved
import Verif.Props.Profiles
import Verif.Props.ProfilesIo
import Verif.Props.Rewrite
import Verif.Props.Copies
import Verif.Props.IntoInner
import Verif.Tests.Encoding
import Verif.Tests.Units
import Verif.Tests.SparkFile
import Verif.Tests.WriteFiles
import Verif.Tests.SampleFile
