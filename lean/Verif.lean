import Verif.Basic
import Verif.Decstr
import Verif.DecstrProps
import Verif.Alloc
import Verif.AllocProps
import Verif.Pack
import Verif.PackProps
import Verif.VecModel
import Verif.VecCells
import Verif.VecInv
import Verif.VecSplice
import Verif.VecSplice2
import Verif.VecOps
import Verif.VecOps2
import Verif.VecSpec
import Verif.VecRefine
import Verif.VecZero
import Verif.VecProps
import Verif.Range
import Verif.RangeSpec
import Verif.RangeProps
import Verif.Target
import Verif.TargetProps
import Verif.Canon
import Verif.CanonSpec
import Verif.CanonScan
import Verif.CanonProps
import Verif.CanonAssign
import Verif.CanonTheorems
import Verif.Types
import Verif.TypesProps
import Verif.Scope
import Verif.ScopeScan
import Verif.ScopeSearch
import Verif.ScopeRun
import Verif.ScopeTheorems
import Verif.ScopeWalk
import Verif.Pool
import Verif.PoolProps
import Verif.Fd
import Verif.FdProps
import Verif.Http
import Verif.HttpProps
import Verif.HttpOut
import Verif.Cmp
import Verif.CmpProps
import Verif.Parse
import Verif.ParseSpec
import Verif.ParseComplete
import Verif.ParseSound
import Verif.ParseTerm
import Verif.ParseProps
import Verif.ParseTheorems
import Verif.Loop
import Verif.Levenshtein
import Verif.LevenshteinProps
import Verif.Helpers
import Verif.HelpersProps
import Verif.Ascii
import Verif.AsciiProps
import Verif.Usage
import Verif.UsageProps
import Verif.RandData
import Verif.Gf2
import Verif.Rand
import Verif.RandPeriod
import Verif.RandProps
import Verif.Tea
import Verif.TeaProps
import Verif.Prelude
import Verif.PreludeFind
import Verif.PreludeProps
import Verif.PreludeCmp
import Verif.PreludeList
import Verif.Cpp
import Verif.CppProps
import Verif.Testdiff
import Verif.TestdiffProps
import Verif.Arc
import Verif.ArcProps
import Verif.Parfor
import Verif.ParforBatch
import Verif.ParforInv
import Verif.ParforShape
import Verif.ParforProps
import Verif.Treiber
import Verif.TreiberProps
import Verif.TreiberTag
import Verif.BitSet
import Verif.BitSetProps
import Verif.BitSetAlg
import Verif.BitSetEach
import Verif.Flat
import Verif.FlatProps
import Verif.FlatMerge
import Verif.FlatMap
import Verif.Unicode
import Verif.UnicodeProps
import Verif.Path
import Verif.PathProps
import Verif.PathWalk
import Verif.PathRel
import Verif.Intlit
import Verif.IntlitProps
import Verif.Lexer
import Verif.LexerSpec
import Verif.LexerLemmas
import Verif.LexerNum
import Verif.LexerNum2
import Verif.LexerLit
import Verif.LexerProps
import Verif.LexerCor
import Verif.Hash
import Verif.HashArith
import Verif.HashIndex
import Verif.HashCompact
import Verif.HashGrow
import Verif.HashChain
import Verif.HashInsert
import Verif.HashRemove
import Verif.HashFill
import Verif.HashOps
import Verif.HashSpec
import Verif.HashProps
import Verif.HashBug
import Verif.Lifetime
import Verif.LifetimeSpec
import Verif.LifetimeEnc
import Verif.LifetimePaths
import Verif.LifetimeMerge
import Verif.LifetimeUnion
import Verif.LifetimeProps
import Verif.LifetimeOps
import Verif.LifetimeInter
import Verif.LifetimeStatic
import Verif.Cgen
import Verif.CgenSpec
import Verif.CgenNameSpec
import Verif.CgenLit
import Verif.CgenIdent
import Verif.CgenNames
import Verif.CompileSpec
import Verif.Compile
import Verif.CompileDeps
import Verif.CompileLevels
import Verif.CompileMain
import Verif.CompileWatch
import Verif.ResolveSpec
import Verif.Resolve
import Verif.ResolveProps
import Verif.ResolveCases
import Verif.ResolveFiles
import Verif.BuildSpec
import Verif.Build
import Verif.BuildHash
import Verif.BuildScan
import Verif.BuildProps
import Verif.BuildCases
import Verif.VecExpr
import Verif.VecExprSpec
import Verif.VecExprProps
import Verif.CallArgs
import Verif.CallArgsSpec
import Verif.CallArgsLemmas
import Verif.CallArgsBind
import Verif.CallArgsCore
import Verif.CallArgsCount
import Verif.CallArgsProps
import Verif.CallArgsAccept
import Verif.CallArgsDecl
import Verif.EvLoop
import Verif.EvSpec
import Verif.EvPack
import Verif.EvInv
import Verif.EvActs
import Verif.EvStep
import Verif.EvProps
import Verif.EvConn
import Verif.EvTurn
import Verif.EvAccept
import Verif.Spawn
import Verif.SpawnProps
import Verif.SpawnChild
import Verif.Capture
import Verif.CaptureProps
import Verif.Kids
import Verif.KidsSpec
import Verif.KidsWord
import Verif.KidsInv
import Verif.KidsKin
import Verif.KidsSpawn
import Verif.KidsActs
import Verif.KidsStep
import Verif.KidsProps
import Verif.KidsBad
import Verif.KidsEvent
import Verif.Fold
import Verif.FoldSpec
import Verif.FoldMean
import Verif.FoldAnd
import Verif.FoldSolve
import Verif.FoldCreate
import Verif.FoldBck
import Verif.FoldInl
import Verif.FoldTop
import Verif.CgText
import Verif.CppGram
import Verif.CgExpr
import Verif.CgMean
import Verif.CgTree
import Verif.CgReads
import Verif.CgDoes
import Verif.CgTyped
import Verif.CgNum
import Verif.CgSeq
import Verif.CgHold
import Verif.CgSim
import Verif.CgVia
import Verif.CgMain
import Verif.CgTop
import Verif.CgStmt
import Verif.CppStmt
import Verif.CppStmtRead
import Verif.StmtRun
import Verif.StmtEval
import Verif.StmtRel
import Verif.StmtText
import Verif.StmtSim
import Verif.StmtSim2
import Verif.StmtLoop
import Verif.StmtFlat
import Verif.StmtMeans
import Verif.StmtDemo
import Verif.JumpScope
import Verif.JumpSpec
import Verif.JumpProps
import Verif.Cli
import Verif.CliSpec
import Verif.CliProps
import Verif.CliMain
import Verif.CliTop
import Verif.SpecCache
import Verif.SpecCacheKey
import Verif.SpecCacheSpec
import Verif.SpecCacheInv
import Verif.SpecCacheEff
import Verif.SpecCacheProps
import Verif.SpecCacheMore
import Verif.SpecCacheBugs
import Verif.Bck
import Verif.BckSpec
import Verif.BckProps
import Verif.BckSound
import Verif.BckBugs
import Verif.RefGraph
import Verif.RefGraphSpec
import Verif.RefGraphProps
import Verif.RefGraphSound
import Verif.RefGraphExact
import Verif.Bdf
import Verif.BdfSpec
import Verif.BdfProps
import Verif.BdfSound
import Verif.BdfSafe
import Verif.BdfRead
import Verif.BdfBugs
import Verif.Mkdir
import Verif.MkdirProps
import Verif.EmbedSpec
import Verif.Embed
import Verif.EmbedBits
import Verif.EmbedTable
import Verif.EmbedMono
import Verif.EmbedMeas
import Verif.EmbedProps
import Verif.EmbedFont
import Verif.EmbedBugs
import Verif.Hotswap
import Verif.HotswapProps
import Verif.HotswapLoad
import Verif.Readdir
import Verif.ReaddirSpec
import Verif.ReaddirProps
import Verif.ReaddirFound
import Verif.ReaddirBugs
import Verif.Signal
import Verif.SignalProps
import Verif.Par
import Verif.ParProps
import Verif.IntType
import Verif.IntTypeProps
import Verif.Field
import Verif.FieldSpec
import Verif.FieldProps
import Verif.FieldBugs
import Verif.Snippet
import Verif.SnippetProps
import Verif.Exec
import Verif.ExecProps
import Verif.Retype
import Verif.RetypeProps
