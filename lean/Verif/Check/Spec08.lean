import Verif.Model.Html
/-
Tests of the model: examples 456 to 520 of /repo/spec.txt, generated by tools/gen_examples.py.
-/
namespace CM

/-- example 456 -/
example : (toHtml false {} ("____foo_\n".toList)).toOption = some ("<p>___<em>foo</em></p>\n".toList) := by decide +kernel
/-- example 457 -/
example : (toHtml false {} ("__foo___\n".toList)).toOption = some ("<p><strong>foo</strong>_</p>\n".toList) := by decide +kernel
/-- example 458 -/
example : (toHtml false {} ("_foo____\n".toList)).toOption = some ("<p><em>foo</em>___</p>\n".toList) := by decide +kernel
/-- example 459 -/
example : (toHtml false {} ("**foo**\n".toList)).toOption = some ("<p><strong>foo</strong></p>\n".toList) := by decide +kernel
/-- example 460 -/
example : (toHtml false {} ("*_foo_*\n".toList)).toOption = some ("<p><em><em>foo</em></em></p>\n".toList) := by decide +kernel
/-- example 461 -/
example : (toHtml false {} ("__foo__\n".toList)).toOption = some ("<p><strong>foo</strong></p>\n".toList) := by decide +kernel
/-- example 462 -/
example : (toHtml false {} ("_*foo*_\n".toList)).toOption = some ("<p><em><em>foo</em></em></p>\n".toList) := by decide +kernel
/-- example 463 -/
example : (toHtml false {} ("****foo****\n".toList)).toOption = some ("<p><strong><strong>foo</strong></strong></p>\n".toList) := by decide +kernel
/-- example 464 -/
example : (toHtml false {} ("____foo____\n".toList)).toOption = some ("<p><strong><strong>foo</strong></strong></p>\n".toList) := by decide +kernel
/-- example 465 -/
example : (toHtml false {} ("******foo******\n".toList)).toOption = some ("<p><strong><strong><strong>foo</strong></strong></strong></p".toList ++ ">\n".toList) := by decide +kernel
/-- example 466 -/
example : (toHtml false {} ("***foo***\n".toList)).toOption = some ("<p><em><strong>foo</strong></em></p>\n".toList) := by decide +kernel
/-- example 467 -/
example : (toHtml false {} ("_____foo_____\n".toList)).toOption = some ("<p><em><strong><strong>foo</strong></strong></em></p>\n".toList) := by decide +kernel
/-- example 468 -/
example : (toHtml false {} ("*foo _bar* baz_\n".toList)).toOption = some ("<p><em>foo _bar</em> baz_</p>\n".toList) := by decide +kernel
/-- example 469 -/
example : (toHtml false {} ("*foo __bar *baz bim__ bam*\n".toList)).toOption = some ("<p><em>foo <strong>bar *baz bim</strong> bam</em></p>\n".toList) := by decide +kernel
/-- example 470 -/
example : (toHtml false {} ("**foo **bar baz**\n".toList)).toOption = some ("<p>**foo <strong>bar baz</strong></p>\n".toList) := by decide +kernel
/-- example 471 -/
example : (toHtml false {} ("*foo *bar baz*\n".toList)).toOption = some ("<p>*foo <em>bar baz</em></p>\n".toList) := by decide +kernel
/-- example 472 -/
example : (toHtml false {} ("*[bar*](/url)\n".toList)).toOption = some ("<p>*<a href=\"/url\">bar*</a></p>\n".toList) := by decide +kernel
/-- example 473 -/
example : (toHtml false {} ("_foo [bar_](/url)\n".toList)).toOption = some ("<p>_foo <a href=\"/url\">bar_</a></p>\n".toList) := by decide +kernel
/-- example 474 -/
example : (toHtml false {} ("*<img src=\"foo\" title=\"*\"/>\n".toList)).toOption = some ("<p>*<img src=\"foo\" title=\"*\"/></p>\n".toList) := by decide +kernel
/-- example 475 -/
example : (toHtml false {} ("**<a href=\"**\">\n".toList)).toOption = some ("<p>**<a href=\"**\"></p>\n".toList) := by decide +kernel
/-- example 476 -/
example : (toHtml false {} ("__<a href=\"__\">\n".toList)).toOption = some ("<p>__<a href=\"__\"></p>\n".toList) := by decide +kernel
/-- example 477 -/
example : (toHtml false {} ("*a `*`*\n".toList)).toOption = some ("<p><em>a <code>*</code></em></p>\n".toList) := by decide +kernel
/-- example 478 -/
example : (toHtml false {} ("_a `_`_\n".toList)).toOption = some ("<p><em>a <code>_</code></em></p>\n".toList) := by decide +kernel
/-- example 479 -/
example : (toHtml false {} ("**a<http://foo.bar/?q=**>\n".toList)).toOption = some ("<p>**a<a href=\"http://foo.bar/?q=**\">http://foo.bar/?q=**</a".toList ++ "></p>\n".toList) := by decide +kernel
/-- example 480 -/
example : (toHtml false {} ("__a<http://foo.bar/?q=__>\n".toList)).toOption = some ("<p>__a<a href=\"http://foo.bar/?q=__\">http://foo.bar/?q=__</a".toList ++ "></p>\n".toList) := by decide +kernel
/-- example 481 -/
example : (toHtml false {} ("[link](/uri \"title\")\n".toList)).toOption = some ("<p><a href=\"/uri\" title=\"title\">link</a></p>\n".toList) := by decide +kernel
/-- example 482 -/
example : (toHtml false {} ("[link](/uri)\n".toList)).toOption = some ("<p><a href=\"/uri\">link</a></p>\n".toList) := by decide +kernel
/-- example 483 -/
example : (toHtml false {} ("[link]()\n".toList)).toOption = some ("<p><a href=\"\">link</a></p>\n".toList) := by decide +kernel
/-- example 484 -/
example : (toHtml false {} ("[link](<>)\n".toList)).toOption = some ("<p><a href=\"\">link</a></p>\n".toList) := by decide +kernel
/-- example 485 -/
example : (toHtml false {} ("[link](/my uri)\n".toList)).toOption = some ("<p>[link](/my uri)</p>\n".toList) := by decide +kernel
/-- example 486 -/
example : (toHtml false {} ("[link](</my uri>)\n".toList)).toOption = some ("<p><a href=\"/my%20uri\">link</a></p>\n".toList) := by decide +kernel
/-- example 487 -/
example : (toHtml false {} ("[link](foo\nbar)\n".toList)).toOption = some ("<p>[link](foo\nbar)</p>\n".toList) := by decide +kernel
/-- example 488 -/
example : (toHtml false {} ("[link](<foo\nbar>)\n".toList)).toOption = some ("<p>[link](<foo\nbar>)</p>\n".toList) := by decide +kernel
/-- example 489 -/
example : (toHtml false {} ("[a](<b)c>)\n".toList)).toOption = some ("<p><a href=\"b)c\">a</a></p>\n".toList) := by decide +kernel
/-- example 490 -/
example : (toHtml false {} ("[link](<foo\\>)\n".toList)).toOption = some ("<p>[link](&lt;foo&gt;)</p>\n".toList) := by decide +kernel
/-- example 491 -/
example : (toHtml false {} ("[a](<b)c\n[a](<b)c>\n[a](<b>c)\n".toList)).toOption = some ("<p>[a](&lt;b)c\n[a](&lt;b)c&gt;\n[a](<b>c)</p>\n".toList) := by decide +kernel
/-- example 492 -/
example : (toHtml false {} ("[link](\\(foo\\))\n".toList)).toOption = some ("<p><a href=\"(foo)\">link</a></p>\n".toList) := by decide +kernel
/-- example 493 -/
example : (toHtml false {} ("[link](foo(and(bar)))\n".toList)).toOption = some ("<p><a href=\"foo(and(bar))\">link</a></p>\n".toList) := by decide +kernel
/-- example 494 -/
example : (toHtml false {} ("[link](foo\\(and\\(bar\\))\n".toList)).toOption = some ("<p><a href=\"foo(and(bar)\">link</a></p>\n".toList) := by decide +kernel
/-- example 495 -/
example : (toHtml false {} ("[link](<foo(and(bar)>)\n".toList)).toOption = some ("<p><a href=\"foo(and(bar)\">link</a></p>\n".toList) := by decide +kernel
/-- example 496 -/
example : (toHtml false {} ("[link](foo\\)\\:)\n".toList)).toOption = some ("<p><a href=\"foo):\">link</a></p>\n".toList) := by decide +kernel
/-- example 497 -/
example : (toHtml false {} ("[link](#fragment)\n\n[link](http://example.com#fragment)\n\n[lin".toList ++ "k](http://example.com?foo=3#frag)\n".toList)).toOption = some ("<p><a href=\"#fragment\">link</a></p>\n<p><a href=\"http://examp".toList ++ "le.com#fragment\">link</a></p>\n<p><a href=\"http://example.com".toList ++ "?foo=3#frag\">link</a></p>\n".toList) := by decide +kernel
/-- example 498 -/
example : (toHtml false {} ("[link](foo\\bar)\n".toList)).toOption = some ("<p><a href=\"foo%5Cbar\">link</a></p>\n".toList) := by decide +kernel
/-- example 499 -/
example : (toHtml false {} ("[link](foo%20b&auml;)\n".toList)).toOption = some ("<p><a href=\"foo%20b%C3%A4\">link</a></p>\n".toList) := by decide +kernel
/-- example 500 -/
example : (toHtml false {} ("[link](\"title\")\n".toList)).toOption = some ("<p><a href=\"%22title%22\">link</a></p>\n".toList) := by decide +kernel
/-- example 501 -/
example : (toHtml false {} ("[link](/url \"title\")\n[link](/url 'title')\n[link](/url (title".toList ++ "))\n".toList)).toOption = some ("<p><a href=\"/url\" title=\"title\">link</a>\n<a href=\"/url\" titl".toList ++ "e=\"title\">link</a>\n<a href=\"/url\" title=\"title\">link</a></p>".toList ++ "\n".toList) := by decide +kernel
/-- example 502 -/
example : (toHtml false {} ("[link](/url \"title \\\"&quot;\")\n".toList)).toOption = some ("<p><a href=\"/url\" title=\"title &quot;&quot;\">link</a></p>\n".toList) := by decide +kernel
/-- example 503 -/
example : (toHtml false {} ("[link](/url \"title\")\n".toList)).toOption = some ("<p><a href=\"/url%C2%A0%22title%22\">link</a></p>\n".toList) := by decide +kernel
/-- example 504 -/
example : (toHtml false {} ("[link](/url \"title \"and\" title\")\n".toList)).toOption = some ("<p>[link](/url &quot;title &quot;and&quot; title&quot;)</p>\n".toList) := by decide +kernel
/-- example 505 -/
example : (toHtml false {} ("[link](/url 'title \"and\" title')\n".toList)).toOption = some ("<p><a href=\"/url\" title=\"title &quot;and&quot; title\">link</".toList ++ "a></p>\n".toList) := by decide +kernel
/-- example 506 -/
example : (toHtml false {} ("[link](   /uri\n  \"title\"  )\n".toList)).toOption = some ("<p><a href=\"/uri\" title=\"title\">link</a></p>\n".toList) := by decide +kernel
/-- example 507 -/
example : (toHtml false {} ("[link] (/uri)\n".toList)).toOption = some ("<p>[link] (/uri)</p>\n".toList) := by decide +kernel
/-- example 508 -/
example : (toHtml false {} ("[link [foo [bar]]](/uri)\n".toList)).toOption = some ("<p><a href=\"/uri\">link [foo [bar]]</a></p>\n".toList) := by decide +kernel
/-- example 509 -/
example : (toHtml false {} ("[link] bar](/uri)\n".toList)).toOption = some ("<p>[link] bar](/uri)</p>\n".toList) := by decide +kernel
/-- example 510 -/
example : (toHtml false {} ("[link [bar](/uri)\n".toList)).toOption = some ("<p>[link <a href=\"/uri\">bar</a></p>\n".toList) := by decide +kernel
/-- example 511 -/
example : (toHtml false {} ("[link \\[bar](/uri)\n".toList)).toOption = some ("<p><a href=\"/uri\">link [bar</a></p>\n".toList) := by decide +kernel
/-- example 512 -/
example : (toHtml false {} ("[link *foo **bar** `#`*](/uri)\n".toList)).toOption = some ("<p><a href=\"/uri\">link <em>foo <strong>bar</strong> <code>#<".toList ++ "/code></em></a></p>\n".toList) := by decide +kernel
/-- example 513 -/
example : (toHtml false {} ("[![moon](moon.jpg)](/uri)\n".toList)).toOption = some ("<p><a href=\"/uri\"><img src=\"moon.jpg\" alt=\"moon\" /></a></p>\n".toList) := by decide +kernel
/-- example 514 -/
example : (toHtml false {} ("[foo [bar](/uri)](/uri)\n".toList)).toOption = some ("<p>[foo <a href=\"/uri\">bar</a>](/uri)</p>\n".toList) := by decide +kernel
/-- example 515 -/
example : (toHtml false {} ("[foo *[bar [baz](/uri)](/uri)*](/uri)\n".toList)).toOption = some ("<p>[foo <em>[bar <a href=\"/uri\">baz</a>](/uri)</em>](/uri)</".toList ++ "p>\n".toList) := by decide +kernel
/-- example 516 -/
example : (toHtml false {} ("![[[foo](uri1)](uri2)](uri3)\n".toList)).toOption = some ("<p><img src=\"uri3\" alt=\"[foo](uri2)\" /></p>\n".toList) := by decide +kernel
/-- example 517 -/
example : (toHtml false {} ("*[foo*](/uri)\n".toList)).toOption = some ("<p>*<a href=\"/uri\">foo*</a></p>\n".toList) := by decide +kernel
/-- example 518 -/
example : (toHtml false {} ("[foo *bar](baz*)\n".toList)).toOption = some ("<p><a href=\"baz*\">foo *bar</a></p>\n".toList) := by decide +kernel
/-- example 519 -/
example : (toHtml false {} ("*foo [bar* baz]\n".toList)).toOption = some ("<p><em>foo [bar</em> baz]</p>\n".toList) := by decide +kernel
/-- example 520 -/
example : (toHtml false {} ("[foo <bar attr=\"](baz)\">\n".toList)).toOption = some ("<p>[foo <bar attr=\"](baz)\"></p>\n".toList) := by decide +kernel

end CM
