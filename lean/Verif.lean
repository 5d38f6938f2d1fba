import Verif.Props.Varint
import Verif.Props.Protobuf
import Verif.Props.Multibase
import Verif.Props.Cid
import Verif.Props.Dagpb
import Verif.Props.Bitswap
import Verif.Props.Identify
import Verif.Props.Asn1
import Verif.Props.Util
import Verif.Props.Bencode
import Verif.Props.Pem
import Verif.Props.Binary
import Verif.Props.TlsTypes
import Verif.Props.TlsRecord
import Verif.Props.TlsConn
import Verif.Props.TlsRead
import Verif.Props.TlsEnd
import Verif.Props.TlsHandshake
import Verif.Props.Mplex
import Verif.Props.MplexWake
import Verif.Props.MplexPair
import Verif.Props.Io
import Verif.Props.Sim
import Verif.Props.Quic
import Verif.Props.QuicStream
import Verif.Props.QuicParams
import Verif.Props.QuicPacket
import Verif.Props.UdpTest
import Verif.Props.StackWhole
import Verif.Props.StackServe
import Verif.Props.StackCommand
import Verif.Props.StackRequest
import Verif.Props.StackIdentify
import Verif.Props.DetrandTest
import Verif.Props.StackBitswap
import Verif.Props.MplexMessages
import Verif.Props.StackMessages
import Verif.Props.TlsMessages
import Verif.Props.HandlerFailure
import Verif.Props.NegotiateFailure
import Verif.Props.IoFailure
import Verif.Props.MplexFailure
import Verif.Props.TlsFailure
import Verif.Props.TlsRefusal
import Verif.Props.MultiaddrRead
import Verif.Props.CidText
import Verif.Props.MultibaseRead
import Verif.Props.CertTime
import Verif.Props.IpfsMain
import Verif.Props.Asn1Tool
import Verif.Props.Listen
import Verif.Props.SimLive
import Verif.Props.Kept
import Verif.Props.Announce
import Verif.Props.MultibaseTest
import Verif.Props.MplexMemory
import Verif.Props.TlsMemory
import Verif.Props.Depth
import Verif.Props.Paths
import Verif.Props.Id
import Verif.Props.Crypt
import Verif.Props.Schema
import Verif.Props.SchemaNet
import Verif.Props.Fields
import Verif.Props.IoVarint
import Verif.Props.Negotiate
import Verif.Props.IpfsTls
import Verif.Props.Ipfs
import Verif.Props.PeerIdentity
import Verif.Props.Producer
import Verif.Props.SelectTest
import Verif.Props.Sock
import Verif.Props.Threads
import Verif.Props.Cli
import Verif.Props.TlsAnswer
import Verif.Props.TlsWake
import Verif.Props.TlsHonest
import Verif.Props.CertText
import Verif.Props.TlsCrash
import Verif.Props.View
import Verif.Props.TlsTool
import Verif.Props.TlsOffer
import Verif.Props.TlsAttack
import Verif.Props.Stack
import Verif.Props.MultiaddrText
import Verif.Props.Asn1Print
import Verif.Props.HexDump
import Verif.Props.Echo
import Verif.Props.MultibaseTool
import Verif.Props.Detrand
import Verif.Props.TlsBinding
import Verif.Props.QuicEndpoint
import Verif.Props.Peer
import Verif.Props.Metainfo
import Verif.Props.Tracker
import Verif.Props.X509
import Verif.Props.X509Handshake
import Verif.Props.Libp2pTls
import Verif.Props.Chat
import Verif.Props.Clock
import Verif.Props.Proxy
import Verif.Props.Download
import Verif.Props.Handler
