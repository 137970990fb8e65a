import Verif.Model.Basic
import Verif.Model.Utf8
import Verif.Model.Name
import Verif.Model.Hpack
import Verif.Proofs.Basic
import Verif.Props.HpackInt
import Verif.Props.Huffman
import Verif.Props.HpackTable
import Verif.Props.Hpack
import Verif.Props.HpackLargeIndex
import Verif.Props.HpackReach
import Verif.Props.Frame
import Verif.Props.FrameHeaders
import Verif.Props.Ws
import Verif.Props.HeaderMap
import Verif.Props.Http1
import Verif.Props.Url
import Verif.Props.Request
import Verif.Props.Extensions
import Verif.Props.Sizes
import Verif.Props.Safety
import Verif.Props.Reuse
import Verif.Props.HttpSettings
import Verif.Props.Target
import Verif.Props.Builder
import Verif.Props.Rfc7541
import Verif.Props.Pieces
import Verif.Props.Stuck
import Verif.Props.Preface
import Verif.Props.Bulk
import Verif.Props.Normal
import Verif.Props.Conversation
import Verif.Props.Options
import Verif.Props.Grammar
import Verif.Props.Rfc9113
import Verif.Props.PartsRequest
import Verif.Props.SettingsApi
import Verif.Props.HeaderVariants
import Verif.Props.Chunk
import Verif.Props.WsConnection
import Verif.Props.Rfc6455
import Verif.Props.HexText
import Verif.Props.UrlBuilder
import Verif.Props.Display
import Verif.Props.WsMessage
import Verif.Props.Rfc9113Connection
import Verif.Props.Rfc9113Peer
import Verif.Props.PeerExact
import Verif.Props.NeverIndexed
import Verif.Props.TableResize
import Verif.Props.SharedIndex
import Verif.Props.EncoderThreads
import Verif.Props.BlockSize
import Verif.Props.Repeats
import Verif.Props.PushedValue
import Verif.Props.UncheckedText
import Verif.Props.BodyKind
import Verif.Props.PushRequest
import Verif.Props.PassOn
import Verif.Props.Amplify
import Verif.Props.Copies
import Verif.Props.MapIndex
import Verif.Props.Answers
import Verif.Props.WireNumbers
import Verif.Props.IsPartial
import Verif.Props.ResponseBody
import Verif.Props.UrlEq
import Verif.Props.UrlExact
import Verif.Props.UrlEqExact
import Verif.Props.UrlFull
import Verif.Props.ReadyMade
import Verif.Props.Rewrite
import Verif.Props.RequestExact
import Verif.Props.Reason
import Verif.Props.Forward
import Verif.Props.AfterError
import Verif.Props.UpperCase
import Verif.Props.Authority
import Verif.Props.Getters
import Verif.Props.BodyExact
import Verif.Spec.HpackLanguage
import Verif.Props.HpackLanguage
import Verif.Props.SmallExact
import Verif.Props.ConnectionExact
import Verif.Props.MethodContent
import Verif.Props.ByteClass
import Verif.Props.Lossy
import Verif.Props.FullParse
import Verif.Props.MapEq
import Verif.Props.MapIter
import Verif.Props.HeaderCost
import Verif.Props.UncheckedExact
import Verif.Props.SplitExact
import Verif.Props.OptionsExact
import Verif.Props.WsSender
import Verif.Props.WrittenHead
import Verif.Props.WrittenChunks
import Verif.Props.RequestStream
import Verif.Props.ResponseStream
import Verif.Props.WsStream
import Verif.Props.Agreement
import Verif.Props.AnswerAgreement
import Verif.Props.WsAgreement
