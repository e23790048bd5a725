import Verif.Props.Quote
import Verif.Props.Headers
import Verif.Props.HeaderSet
import Verif.Props.Range
import Verif.RegexLemmas
import Verif.Model.Etag
import Verif.Props.Etag
import Verif.Props.Options
import Verif.Props.Cookie
import Verif.Props.MultiDict
import Verif.Props.OrderedMultiDict
import Verif.Props.Combined
import Verif.Props.Stream
import Verif.Props.LineIter
import Verif.Props.Wsgi
import Verif.Props.Utils
import Verif.Props.Urls
import Verif.Props.Accept
import Verif.Props.AcceptHeader
import Verif.Props.Dispatch
import Verif.Props.Response
import Verif.Props.Abort
import Verif.Props.Request
import Verif.Props.Auth
import Verif.Props.CacheControl
import Verif.Props.Redirect
import Verif.Props.Date
import Verif.Props.RoutingOrder
import Verif.Props.RoutingMatch
import Verif.Props.RoutingConv
import Verif.Props.RoutingPath
import Verif.Props.RoutingBuild
import Verif.Props.Descriptors
import Verif.Props.DescriptorViews
import Verif.Utf8Lemmas
import Verif.Props.RequestUrl
import Verif.Props.RequestUri
import Verif.Props.EnvironHeaders
import Verif.Props.WrapFile
import Verif.Props.Iri
import Verif.Props.Multipart
import Verif.Props.EnvironBuilder
import Verif.Props.RunApp
import Verif.Props.TestClient
import Verif.Props.RouteFactory
import Verif.Props.RouteMount
import Verif.Props.RouteSubmount
import Verif.Props.SubmountMatch
import Verif.Props.SubmountMap
import Verif.Props.SubmountUrl
import Verif.Props.RouteBind
import Verif.Props.UrlJoin
import Verif.Props.BuildUrl
import Verif.Props.Application
import Verif.Props.AppBuilder
import Verif.Props.RoutingCanon
import Verif.Props.AppUrl
import Verif.Model.ConvArgs
import Verif.Props.ConvArgs
import Verif.Props.RuleText
import Verif.Props.FloatConv
import Verif.Model.SharedData
import Verif.Props.SharedData
import Verif.Model.Views
import Verif.Spec.Json
import Verif.Props.Views
import Verif.Model.FileStorage
import Verif.Props.FileStorage
import Verif.Model.FromApp
import Verif.Props.FromApp
import Verif.Model.Copies
import Verif.Props.Copies
import Verif.Model.RequestDesc
import Verif.Props.RequestDesc
import Verif.Model.ResponseBody
import Verif.Props.ResponseBody
import Verif.Model.MapQueries
import Verif.Props.MapQueries
import Verif.Spec.UserAgent
import Verif.Model.CookieText
import Verif.Props.CookieText
import Verif.Model.HeaderViews
import Verif.Props.HeaderViews
import Verif.Model.HeaderSetQueries
import Verif.Props.HeaderSetQueries
import Verif.Model.MultiCompare
import Verif.Props.MultiCompare
import Verif.Props.IriBack
import Verif.Model.AcceptQueries
import Verif.Props.AcceptQueries
import Verif.Model.StreamPos
import Verif.Props.StreamLines
import Verif.Model.BuildArgs
import Verif.Props.BuildArgs
import Verif.Props.AcceptBest
import Verif.Model.BuilderClose
import Verif.Props.BuilderClose
import Verif.Props.AcceptSyntax
import Verif.Props.BuildHost
import Verif.Props.Revalidate
import Verif.Props.Download
import Verif.Props.HeadRequest
import Verif.Props.MountUrl
import Verif.Props.RevalidateDate
import Verif.Spec.TimedAgent
import Verif.Props.CookieSession
import Verif.Spec.Wire
import Verif.Props.Wire
import Verif.Spec.HeaderGrammar
import Verif.Props.Grammar
import Verif.Model.ImmCopy
import Verif.Props.ImmCopy
import Verif.Model.ErrorClasses
import Verif.Props.ErrorClasses
import Verif.Model.MapThreads
import Verif.Props.MapThreads
import Verif.RegexCost
import Verif.Model.MatchCost
import Verif.Props.MatchCost
import Verif.Model.RequestShare
import Verif.Props.RequestShare
import Verif.Model.MapAdders
import Verif.Props.MapAdders
import Verif.Props.RegisterOrder
import Verif.Model.ClientJar
import Verif.Props.ClientJar
import Verif.Props.ClientAnswer
import Verif.Spec.PathAgent
import Verif.Props.CookiePaths
import Verif.Model.AuthSets
import Verif.Props.AuthSets
import Verif.Props.SetPositions
