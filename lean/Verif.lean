import Verif.Props.Mask
import Verif.Props.StemDense
import Verif.Props.StemSparse
import Verif.Props.Histogram
import Verif.Props.Stack
import Verif.Props.Radial
import Verif.Props.Maxima
import Verif.Props.Counting
import Verif.Props.CountPaths
import Verif.Props.RowDark
import Verif.Props.Thresholds
import Verif.Props.Pool
import Verif.Props.PoolClient
import Verif.Props.Streaming
import Verif.Props.StreamingRace
import Verif.Props.StreamReader
import Verif.Props.SectorReader
import Verif.Props.Rewind
import Verif.Props.ThreadedReader
import Verif.Props.MultiPass
import Verif.Props.SectorFile
import Verif.Props.Hdf5
import Verif.Props.Mpi
import Verif.Props.MpiGather
import Verif.Props.PyReader
import Verif.Props.Slices
import Verif.Props.SparseSlice
import Verif.Props.SparseReduce
import Verif.Props.SparseBin
import Verif.Props.SparseBinFrames
import Verif.Props.Compat
import Verif.Props.Metadata
import Verif.Props.SparseFile
import Verif.Model.PyImage
import Verif.Spec.PyImage
import Verif.Lemmas.PyImage
import Verif.Lemmas.Com
import Verif.Props.Com
import Verif.Props.DarkField
import Verif.Props.SparseRadial
import Verif.Props.BadSectors
import Verif.Props.CountedArray
import Verif.Model.SafeCast
import Verif.Props.SafeCast
import Verif.Model.ScanPath
import Verif.Spec.ScanPath
import Verif.Props.ScanPath
import Verif.Model.NumpyMemory
import Verif.Props.NumpyMemory
import Verif.Model.SectorName
import Verif.Props.SectorName
import Verif.Model.PyFrames
import Verif.Props.PyFrames
import Verif.Model.H5Read
import Verif.Props.H5Read
import Verif.Model.Iteration
import Verif.Props.Iteration
import Verif.Model.NumpyAdvanced
import Verif.Props.SparseIndex
import Verif.Props.SparsePairs
import Verif.Props.SparseEllipsis
import Verif.Model.RawFile
import Verif.Props.RawFile
import Verif.Model.PyStem
import Verif.Props.PyStem
import Verif.Model.Pipeline
import Verif.Props.Pipeline
import Verif.Model.Phase
import Verif.Props.Phase
import Verif.Model.PyCount
import Verif.Props.PyCount
import Verif.Model.Vtkm
import Verif.Props.Vtkm
import Verif.Model.GaussFit
import Verif.Props.GaussFit
import Verif.Model.Example
import Verif.Props.Example
import Verif.Model.Gil
import Verif.Lemmas.Gil
import Verif.Props.Gil
import Verif.Model.SparseDtype
import Verif.Props.SparseDtype
import Verif.Model.Handles
import Verif.Props.Handles
import Verif.Model.SparseObjects
import Verif.Lemmas.SparseObjects
import Verif.Props.SparseObjects
import Verif.Model.CountMetadata
import Verif.Props.CountMetadata
import Verif.Model.TypedFile
import Verif.Props.TypedFile
import Verif.Model.CountingReader
import Verif.Lemmas.CountingReader
import Verif.Props.CountingReader
import Verif.Model.SectorStreams
import Verif.Lemmas.SectorStreams
import Verif.Props.SectorStreams
import Verif.Model.StreamingThrow
import Verif.Props.StreamingThrow
import Verif.Model.EndToEnd
import Verif.Props.EndToEnd
import Verif.Model.FloatPixels
import Verif.Props.FloatPixels
import Verif.Model.BlockPipeline
import Verif.Lemmas.BlockPipeline
import Verif.Props.BlockPipeline
import Verif.Model.FilePipeline
import Verif.Props.FilePipeline
import Verif.Props.Backends
import Verif.Model.ByteCounting
import Verif.Lemmas.ByteCounting
import Verif.Props.ByteCounting
import Verif.Model.MpiCounting
import Verif.Lemmas.MpiCounting
import Verif.Props.MpiCounting
import Verif.Props.MpiImages
import Verif.Model.Float32
import Verif.Lemmas.Float32
import Verif.Model.RoundedCounting
import Verif.Props.Rounding
import Verif.Props.RoundingPaths
import Verif.Props.RoundingRowDark
import Verif.Model.EvenReads
import Verif.Props.EvenReads
import Verif.Model.IeeeRound
import Verif.Lemmas.IeeeRound
import Verif.Model.RoundedHistogram
import Verif.Props.RoundedHistogram
import Verif.Model.RoundedCom
import Verif.Lemmas.RoundedCom
import Verif.Props.RoundedCom
import Verif.Props.RoundingUndefined
import Verif.Model.RoundedImages
import Verif.Lemmas.RoundedImages
import Verif.Props.RoundedImages
import Verif.Props.RoundedImagesSharp
import Verif.Model.RoundedThresholds
import Verif.Props.RoundedSamples
import Verif.Props.RoundedThresholds
import Verif.Model.PyHistogram
import Verif.Props.PyHistogram
import Verif.Model.RawFiles
import Verif.Props.RawFiles
import Verif.Model.LeastSquares
import Verif.Model.Angle
import Verif.Props.LeastSquares
import Verif.Props.LeastSquaresOptimize
import Verif.Props.LeastSquaresLinear
import Verif.Props.LeastSquaresReturns
import Verif.Props.Angle
import Verif.Props.HandleResults
import Verif.Model.ReaderFactory
import Verif.Props.ReaderFactory
import Verif.Model.MpiBytes
import Verif.Lemmas.MpiBytes
import Verif.Props.MpiBytes
import Verif.Props.RawBytes
import Verif.Model.RoundedMean
import Verif.Props.RoundedMean
import Verif.Model.SparseMean
import Verif.Props.SparseMean
import Verif.Model.Descan
import Verif.Props.Descan
import Verif.Props.RadialAnnulus
import Verif.Props.SameImages
import Verif.Model.SparseSession
import Verif.Props.SparseSession
import Verif.Model.MpiThrow
import Verif.Props.MpiThrow
import Verif.Model.ThreadedCounting
import Verif.Props.ThreadedCounting
import Verif.Model.FileSession
import Verif.Props.FileSession
import Verif.Model.SectorPasses
import Verif.Props.SectorPasses
import Verif.Model.ThreadedAgain
import Verif.Props.ThreadedAgain
import Verif.Model.PyElements
import Verif.Props.PyElements
import Verif.Lemmas.CountingOrder
import Verif.Props.CountingOrder
import Verif.Props.SparseSeparated
import Verif.Props.AngleError
import Verif.Model.HistogramInt
import Verif.Props.HistogramInt
import Verif.Model.SparseKeywords
import Verif.Props.SparseKeywords
import Verif.Props.SparseDtypeExact
import Verif.Model.MpiSizes
import Verif.Props.MpiSizes
import Verif.Model.MpiIndexSizes
import Verif.Props.MpiIndexSizes
import Verif.Props.MpiSizesAgree
