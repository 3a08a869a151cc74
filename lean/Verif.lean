import Verif.Jpip.PropsStream
import Verif.Jpip.PropsCache
import Verif.Jpip.PropsSession
import Verif.Jpip.PropsChannel
import Verif.Packet.PropsPacket
import Verif.Packet.PropsBody
import Verif.Dwt.PropsDwt
import Verif.Dwt.PropsMachine
import Verif.Dwt.PropsGain
import Verif.Dwt.PropsStreaming
import Verif.Ht.PropsStreams
import Verif.Ht.PropsTables
import Verif.Ht.PropsBlock
import Verif.Ht.PropsCapacity
import Verif.Jpip.PropsIndex
import Verif.Jpip.PropsView
import Verif.Rtp.PropsFrames
import Verif.Rtp.PropsParser
import Verif.Rtp.PropsSlot
import Verif.Threads.PropsPool
import Verif.Jpip.PropsChunked
import Verif.Jpip.PropsChunked2
import Verif.Jpip.Http
import Verif.Jpip.PropsHttp
import Verif.Jpip.Transport
import Verif.Jpip.PropsTransport
import Verif.Jpip.Post
import Verif.Jpip.PropsPost
import Verif.Jpip.Dropped
import Verif.Jpip.PropsDropped
import Verif.Jpip.Resolve
import Verif.Jpip.PropsResolve
import Verif.Jpip.Head
import Verif.Jpip.PropsHead
import Verif.Jpip.PropsWorld
import Verif.Jpip.PropsRequest
import Verif.Jpip.PropsRequest2
import Verif.Jpip.PropsWalker
import Verif.Jpip.PropsWalker2
import Verif.Jpip.PropsAssembler
import Verif.Jpip.PropsClient
import Verif.Jph.Props
import Verif.Codestream.PropsSource
import Verif.Tile.Geometry
import Verif.Tile.PropsGeometry
import Verif.Tile.Order
import Verif.Tile.OrderSpec
import Verif.Tile.OrderLemmas
import Verif.Tile.OrderMain
import Verif.Tile.PropsOrder
import Verif.Tile.PropsQuant
import Verif.Codestream.Markers
import Verif.Codestream.MarkerLemmas
import Verif.Codestream.PropsMarkers
import Verif.Codestream.PropsMarkers2
import Verif.Codestream.PropsHeader
import Verif.Codestream.PropsSafe
import Verif.Codestream.PropsPpm
import Verif.Codestream.Container
import Verif.Codestream.PropsContainer
import Verif.Codestream.PropsDecoder
import Verif.Jpip.Wrapper
import Verif.Jpip.PropsWrapper
import Verif.Ebcot.Mq
import Verif.Ebcot.MqSpec
import Verif.Ebcot.MqEnc
import Verif.Ebcot.MqDec
import Verif.Ebcot.MqSafe
import Verif.Ebcot.MqRound
import Verif.Ebcot.PropsMq
import Verif.Ebcot.Tables
import Verif.Ebcot.Block
import Verif.Ebcot.BlockSpec
import Verif.Ebcot.BlockSim
import Verif.Ebcot.BlockStep
import Verif.Ebcot.BlockPass
import Verif.Ebcot.BlockCode
import Verif.Ebcot.MqOps
import Verif.Ebcot.BlockDec
import Verif.Ebcot.BlockRound
import Verif.Ebcot.BlockAll
import Verif.Ebcot.BlockVal
import Verif.Ebcot.BlockDequant
import Verif.Ebcot.BlockLossless
import Verif.Ebcot.BlockRoi
import Verif.Ebcot.PropsBlock
import Verif.Ebcot.BlockSafe
import Verif.Ebcot.BlockSafeAll
import Verif.Ebcot.PropsBlockSafe
import Verif.Ht.Refine
import Verif.Ht.RefStreams
import Verif.Ht.RefSpec
import Verif.Ht.RefScan
import Verif.Ht.RefPasses
import Verif.Ht.PropsRefine
import Verif.Ht.HtDecode
import Verif.Ht.HtLemmas
import Verif.Ht.PropsHtDecode
import Verif.Ht.HtSafe
import Verif.Ht.PropsHtSafe
import Verif.Tile.Strip
import Verif.Tile.StripLemmas
import Verif.Tile.PropsStrip
import Verif.Tile.Pipeline
import Verif.Tile.PipelineLemmas
import Verif.Tile.PipelineBand
import Verif.Tile.PipelineMain
import Verif.Tile.PropsPipeline
import Verif.Tile.Picture
import Verif.Tile.PictureLemmas
import Verif.Tile.PictureMain
import Verif.Tile.PropsPicture
import Verif.Tile.PropsFits
import Verif.Tile.Bytes
import Verif.Tile.Codestream
import Verif.Tile.CodestreamLemmas
import Verif.Tile.PropsCodestream
import Verif.Tile.Announced
import Verif.Tile.PropsAnnounced
import Verif.Tile.Magb
import Verif.Tile.PropsMagb
import Verif.Tile.Step
import Verif.Tile.PropsStep
import Verif.Ht.Irrev
import Verif.Ht.PropsIrrev
import Verif.Ebcot.Irrev
import Verif.Ebcot.PropsIrrev
import Verif.Tile.Rows
import Verif.Tile.RowsLemmas
import Verif.Tile.PropsRows
import Verif.Img.Files
import Verif.Img.FilesLemmas
import Verif.Img.PropsFiles
import Verif.Img.PropsChain
import Verif.Simd.Vec
import Verif.Simd.Kernels
import Verif.Simd.Lemmas
import Verif.Simd.PropsPack
import Verif.Simd.PropsPpm
import Verif.Simd.PropsPlane
import Verif.Simd.PropsFin
import Verif.Simd.Lanes
import Verif.Simd.LaneLemmas
import Verif.Simd.HtLaneLemmas
import Verif.Simd.RowLemmas
import Verif.Simd.PropsDequant
import Verif.Ht.PropsPacked
import Verif.Simd.LiftWords
import Verif.Simd.PropsLift
import Verif.Simd.PropsLiftImage
import Verif.Simd.Wide
import Verif.Simd.WideLemmas
import Verif.Simd.WideFused
import Verif.Simd.WidePlanar
import Verif.Simd.WideRows
import Verif.Simd.PropsWide
import Verif.Simd.Colour
import Verif.Simd.ColourLemmas
import Verif.Simd.ColourRows
import Verif.Simd.PropsColour
