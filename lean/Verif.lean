import Verif.Props.Truncation
import Verif.Props.Collectives
import Verif.Props.CollectiveGrad
import Verif.Props.Halo
import Verif.Props.FFT
import Verif.Props.Quadrature
import Verif.Props.QuadratureS2
import Verif.Props.Legendre
import Verif.Props.SHT
import Verif.Props.VectorSHT
import Verif.Props.Lobatto
import Verif.Props.Cache
import Verif.Props.Disco
import Verif.Props.DiscoCpu
import Verif.Props.DiscoFused
import Verif.Props.DiscoNorm
import Verif.Props.FilterBasis
import Verif.Props.FilterMask
import Verif.Props.DiscoGeom
import Verif.Props.SpectralConv
import Verif.Props.RandomFields
import Verif.Props.ShallowWater
import Verif.Props.Resample
import Verif.Props.Attention
import Verif.Props.AttentionCpu
import Verif.Props.AttentionLayout
import Verif.Props.AttentionLayer
import Verif.Props.QuadraturePos
import Verif.Props.Registry
import Verif.Props.Metrics
import Verif.Props.Losses
import Verif.Props.SegLosses
import Verif.Props.DistSHT
import Verif.Props.DistQuadrature
import Verif.Props.DistDisco
import Verif.Props.DistAttention
import Verif.Props.DistSpectralConv
import Verif.Props.DistAttentionBwd
import Verif.Props.DiscoCuda
import Verif.Props.Zernike
import Verif.Props.AttentionCuda
import Verif.Props.AttentionCudaBwd
import Verif.Props.DistAttentionLayer
import Verif.Props.Fft2
import Verif.Props.SphereSolver
import Verif.Props.PosEmbed
import Verif.Props.Rotation
import Verif.Props.FilterNorm
import Verif.Props.SFNO
import Verif.Props.Layers
import Verif.Props.DiscoKpacked
import Verif.Props.ShallowWaterIc
import Verif.Props.LobattoConv
import Verif.Props.GaussExists
import Verif.Props.SFNOBlock
import Verif.Props.StanfordDownload
import Verif.Props.StanfordTar
import Verif.Props.StanfordStats
import Verif.Props.StanfordConvert
import Verif.Props.StanfordItems
import Verif.Props.LSNO
import Verif.Props.SpectralDeriv
import Verif.Props.Transformer
import Verif.Props.DiscoTranspose
import Verif.Props.UNet
import Verif.Props.LSNOLayers
import Verif.Props.Segformer
import Verif.Props.LayoutCuda
import Verif.Props.GpuLaunch
import Verif.Props.Elevation
import Verif.Props.RingCuda
import Verif.Props.RingCudaUp
import Verif.Props.DiscoPaths
import Verif.Props.RingCudaBwd
import Verif.Props.RingCudaBwd2
import Verif.Props.AttentionTypes
import Verif.Props.DiscoTransPaths
import Verif.Props.DiscoBuilt
import Verif.Props.Declared
import Verif.Props.Messages
import Verif.Props.MessagesBwd
import Verif.Props.MessagesSHT
import Verif.Props.MessagesDisco
import Verif.Props.DistSHTGrad
import Verif.Props.MessagesQuad
import Verif.Props.DistQuadGrad
import Verif.Props.MessagesRoundTrip
import Verif.Props.MessagesSpectral
import Verif.Props.DistSpectralGrad
import Verif.Props.DistSpectralTrain
