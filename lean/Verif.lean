import Verif.Basic
import Verif.Quoter.Props
import Verif.Utf8.Props
import Verif.EditDistance.Props
import Verif.Limit.Props
import Verif.FileSpec.Props
import Verif.Glob.Props
import Verif.PathGlob.Props
import Verif.Cutter.Props
import Verif.StringFrag.Props
import Verif.Tags.Props
import Verif.MonotonicVector.Props
import Verif.StringVector.Props
import Verif.KeyValue.Props
import Verif.LemmaCode.Props
import Verif.BitStream.Props
import Verif.Huffman.Props
import Verif.Huffman.PropsOptimal
import Verif.ListCoders.Props
import Verif.Lattice.PropsSymbols
import Verif.Fsa.PropsOps
import Verif.Fsa.PropsIntersect
import Verif.Fsa.PropsBin
import Verif.Fsa.PropsInc
import Verif.Server.Safe
import Verif.Server.PropsHandler
import Verif.Server.PropsMultipart
import Verif.Server.PropsUpload
import Verif.Server.PropsForm
import Verif.Server.PropsPage
import Verif.Server.PropsSession
import Verif.Lattice.PropsAdded
import Verif.Chart.Props
import Verif.Fsa.PropsHash
import Verif.Server.PropsOnly
import Verif.Pipeline.Props
import Verif.Pipeline.PropsAlias
import Verif.Gobio.Props
import Verif.PsiFormat.Props
import Verif.Bracket.Props
import Verif.IterWriter.Props
import Verif.Srx.Props
import Verif.Annot.Props
import Verif.Unumsunt.Props
import Verif.Lattice.PropsCut
import Verif.Md5.Props
import Verif.Symal.Props
import Verif.Morfologik.Props
import Verif.Xml.Props
import Verif.Guess.Props
import Verif.Lattice.PropsWalk
import Verif.Lattice.PropsKin
import Verif.Numconv.Props
import Verif.Lattice.PropsFix
import Verif.Iconv.Props
import Verif.Casing.Props
import Verif.Lexicon.Props
import Verif.Lexicon.MapperProps
import Verif.Zval.Props
import Verif.Zval.SymProps
import Verif.Zval.TreeProps
import Verif.Dag.Props
import Verif.Dag.HashProps
import Verif.Dag.ProductProps
import Verif.Minfsa.Props
import Verif.Irstlm.Props
import Verif.Puddle.PropsRules
import Verif.Puddle.PropsTagset
import Verif.Puddle.PropsActions
import Verif.Fsa.PropsLanguage
import Verif.Zlib.PropsCrc
import Verif.Zlib.PropsAdler
import Verif.Zlib.PropsInf
import Verif.Zlib.PropsWindow
import Verif.Zlib.PropsHeader
import Verif.Zlib.PropsStream
import Verif.Zlib.PropsGzip
import Verif.Zlib.PropsFast
import Verif.Fex.Props
import Verif.Fex.PropsSize
import Verif.Zlib.PropsPieces
import Verif.Zlib.PropsPiecesStored
import Verif.Zlib.PropsHeadPieces
import Verif.Zlib.PropsStreamPieces
import Verif.Zlib.PropsGzipPieces
import Verif.Fex.PropsInflate
