import Verif.Model.Html
/-
Tests of the model: examples 521 to 585 of /repo/spec.txt, generated by tools/gen_examples.py.
-/
namespace CM

/-- example 521 -/
example : (toHtml false {} ("[foo`](/uri)`\n".toList)).toOption = some ("<p>[foo<code>](/uri)</code></p>\n".toList) := by decide +kernel
/-- example 522 -/
example : (toHtml false {} ("[foo<http://example.com/?search=](uri)>\n".toList)).toOption = some ("<p>[foo<a href=\"http://example.com/?search=%5D(uri)\">http://".toList ++ "example.com/?search=](uri)</a></p>\n".toList) := by decide +kernel
/-- example 523 -/
example : (toHtml false {} ("[foo][bar]\n\n[bar]: /url \"title\"\n".toList)).toOption = some ("<p><a href=\"/url\" title=\"title\">foo</a></p>\n".toList) := by decide +kernel
/-- example 524 -/
example : (toHtml false {} ("[link [foo [bar]]][ref]\n\n[ref]: /uri\n".toList)).toOption = some ("<p><a href=\"/uri\">link [foo [bar]]</a></p>\n".toList) := by decide +kernel
/-- example 525 -/
example : (toHtml false {} ("[link \\[bar][ref]\n\n[ref]: /uri\n".toList)).toOption = some ("<p><a href=\"/uri\">link [bar</a></p>\n".toList) := by decide +kernel
/-- example 526 -/
example : (toHtml false {} ("[link *foo **bar** `#`*][ref]\n\n[ref]: /uri\n".toList)).toOption = some ("<p><a href=\"/uri\">link <em>foo <strong>bar</strong> <code>#<".toList ++ "/code></em></a></p>\n".toList) := by decide +kernel
/-- example 527 -/
example : (toHtml false {} ("[![moon](moon.jpg)][ref]\n\n[ref]: /uri\n".toList)).toOption = some ("<p><a href=\"/uri\"><img src=\"moon.jpg\" alt=\"moon\" /></a></p>\n".toList) := by decide +kernel
/-- example 528 -/
example : (toHtml false {} ("[foo [bar](/uri)][ref]\n\n[ref]: /uri\n".toList)).toOption = some ("<p>[foo <a href=\"/uri\">bar</a>]<a href=\"/uri\">ref</a></p>\n".toList) := by decide +kernel
/-- example 529 -/
example : (toHtml false {} ("[foo *bar [baz][ref]*][ref]\n\n[ref]: /uri\n".toList)).toOption = some ("<p>[foo <em>bar <a href=\"/uri\">baz</a></em>]<a href=\"/uri\">r".toList ++ "ef</a></p>\n".toList) := by decide +kernel
/-- example 530 -/
example : (toHtml false {} ("*[foo*][ref]\n\n[ref]: /uri\n".toList)).toOption = some ("<p>*<a href=\"/uri\">foo*</a></p>\n".toList) := by decide +kernel
/-- example 531 -/
example : (toHtml false {} ("[foo *bar][ref]\n\n[ref]: /uri\n".toList)).toOption = some ("<p><a href=\"/uri\">foo *bar</a></p>\n".toList) := by decide +kernel
/-- example 532 -/
example : (toHtml false {} ("[foo <bar attr=\"][ref]\">\n\n[ref]: /uri\n".toList)).toOption = some ("<p>[foo <bar attr=\"][ref]\"></p>\n".toList) := by decide +kernel
/-- example 533 -/
example : (toHtml false {} ("[foo`][ref]`\n\n[ref]: /uri\n".toList)).toOption = some ("<p>[foo<code>][ref]</code></p>\n".toList) := by decide +kernel
/-- example 534 -/
example : (toHtml false {} ("[foo<http://example.com/?search=][ref]>\n\n[ref]: /uri\n".toList)).toOption = some ("<p>[foo<a href=\"http://example.com/?search=%5D%5Bref%5D\">htt".toList ++ "p://example.com/?search=][ref]</a></p>\n".toList) := by decide +kernel
/-- example 535 -/
example : (toHtml false {} ("[foo][BaR]\n\n[bar]: /url \"title\"\n".toList)).toOption = some ("<p><a href=\"/url\" title=\"title\">foo</a></p>\n".toList) := by decide +kernel
/-- example 536 -/
example : (toHtml false {} ("[Толпой][Толпой] is a Russian word.\n\n[ТОЛПОЙ]: /url\n".toList)).toOption = some ("<p><a href=\"/url\">Толпой</a> is a Russian word.</p>\n".toList) := by decide +kernel
/-- example 537 -/
example : (toHtml false {} ("[Foo\n  bar]: /url\n\n[Baz][Foo bar]\n".toList)).toOption = some ("<p><a href=\"/url\">Baz</a></p>\n".toList) := by decide +kernel
/-- example 538 -/
example : (toHtml false {} ("[foo] [bar]\n\n[bar]: /url \"title\"\n".toList)).toOption = some ("<p>[foo] <a href=\"/url\" title=\"title\">bar</a></p>\n".toList) := by decide +kernel
/-- example 539 -/
example : (toHtml false {} ("[foo]\n[bar]\n\n[bar]: /url \"title\"\n".toList)).toOption = some ("<p>[foo]\n<a href=\"/url\" title=\"title\">bar</a></p>\n".toList) := by decide +kernel
/-- example 540 -/
example : (toHtml false {} ("[foo]: /url1\n\n[foo]: /url2\n\n[bar][foo]\n".toList)).toOption = some ("<p><a href=\"/url1\">bar</a></p>\n".toList) := by decide +kernel
/-- example 541 -/
example : (toHtml false {} ("[bar][foo\\!]\n\n[foo!]: /url\n".toList)).toOption = some ("<p>[bar][foo!]</p>\n".toList) := by decide +kernel
/-- example 542 -/
example : (toHtml false {} ("[foo][ref[]\n\n[ref[]: /uri\n".toList)).toOption = some ("<p>[foo][ref[]</p>\n<p>[ref[]: /uri</p>\n".toList) := by decide +kernel
/-- example 543 -/
example : (toHtml false {} ("[foo][ref[bar]]\n\n[ref[bar]]: /uri\n".toList)).toOption = some ("<p>[foo][ref[bar]]</p>\n<p>[ref[bar]]: /uri</p>\n".toList) := by decide +kernel
/-- example 544 -/
example : (toHtml false {} ("[[[foo]]]\n\n[[[foo]]]: /url\n".toList)).toOption = some ("<p>[[[foo]]]</p>\n<p>[[[foo]]]: /url</p>\n".toList) := by decide +kernel
/-- example 545 -/
example : (toHtml false {} ("[foo][ref\\[]\n\n[ref\\[]: /uri\n".toList)).toOption = some ("<p><a href=\"/uri\">foo</a></p>\n".toList) := by decide +kernel
/-- example 546 -/
example : (toHtml false {} ("[bar\\\\]: /uri\n\n[bar\\\\]\n".toList)).toOption = some ("<p><a href=\"/uri\">bar\\</a></p>\n".toList) := by decide +kernel
/-- example 547 -/
example : (toHtml false {} ("[]\n\n[]: /uri\n".toList)).toOption = some ("<p>[]</p>\n<p>[]: /uri</p>\n".toList) := by decide +kernel
/-- example 548 -/
example : (toHtml false {} ("[\n ]\n\n[\n ]: /uri\n".toList)).toOption = some ("<p>[\n]</p>\n<p>[\n]: /uri</p>\n".toList) := by decide +kernel
/-- example 549 -/
example : (toHtml false {} ("[foo][]\n\n[foo]: /url \"title\"\n".toList)).toOption = some ("<p><a href=\"/url\" title=\"title\">foo</a></p>\n".toList) := by decide +kernel
/-- example 550 -/
example : (toHtml false {} ("[*foo* bar][]\n\n[*foo* bar]: /url \"title\"\n".toList)).toOption = some ("<p><a href=\"/url\" title=\"title\"><em>foo</em> bar</a></p>\n".toList) := by decide +kernel
/-- example 551 -/
example : (toHtml false {} ("[Foo][]\n\n[foo]: /url \"title\"\n".toList)).toOption = some ("<p><a href=\"/url\" title=\"title\">Foo</a></p>\n".toList) := by decide +kernel
/-- example 552 -/
example : (toHtml false {} ("[foo] \n[]\n\n[foo]: /url \"title\"\n".toList)).toOption = some ("<p><a href=\"/url\" title=\"title\">foo</a>\n[]</p>\n".toList) := by decide +kernel
/-- example 553 -/
example : (toHtml false {} ("[foo]\n\n[foo]: /url \"title\"\n".toList)).toOption = some ("<p><a href=\"/url\" title=\"title\">foo</a></p>\n".toList) := by decide +kernel
/-- example 554 -/
example : (toHtml false {} ("[*foo* bar]\n\n[*foo* bar]: /url \"title\"\n".toList)).toOption = some ("<p><a href=\"/url\" title=\"title\"><em>foo</em> bar</a></p>\n".toList) := by decide +kernel
/-- example 555 -/
example : (toHtml false {} ("[[*foo* bar]]\n\n[*foo* bar]: /url \"title\"\n".toList)).toOption = some ("<p>[<a href=\"/url\" title=\"title\"><em>foo</em> bar</a>]</p>\n".toList) := by decide +kernel
/-- example 556 -/
example : (toHtml false {} ("[[bar [foo]\n\n[foo]: /url\n".toList)).toOption = some ("<p>[[bar <a href=\"/url\">foo</a></p>\n".toList) := by decide +kernel
/-- example 557 -/
example : (toHtml false {} ("[Foo]\n\n[foo]: /url \"title\"\n".toList)).toOption = some ("<p><a href=\"/url\" title=\"title\">Foo</a></p>\n".toList) := by decide +kernel
/-- example 558 -/
example : (toHtml false {} ("[foo] bar\n\n[foo]: /url\n".toList)).toOption = some ("<p><a href=\"/url\">foo</a> bar</p>\n".toList) := by decide +kernel
/-- example 559 -/
example : (toHtml false {} ("\\[foo]\n\n[foo]: /url \"title\"\n".toList)).toOption = some ("<p>[foo]</p>\n".toList) := by decide +kernel
/-- example 560 -/
example : (toHtml false {} ("[foo*]: /url\n\n*[foo*]\n".toList)).toOption = some ("<p>*<a href=\"/url\">foo*</a></p>\n".toList) := by decide +kernel
/-- example 561 -/
example : (toHtml false {} ("[foo][bar]\n\n[foo]: /url1\n[bar]: /url2\n".toList)).toOption = some ("<p><a href=\"/url2\">foo</a></p>\n".toList) := by decide +kernel
/-- example 562 -/
example : (toHtml false {} ("[foo][]\n\n[foo]: /url1\n".toList)).toOption = some ("<p><a href=\"/url1\">foo</a></p>\n".toList) := by decide +kernel
/-- example 563 -/
example : (toHtml false {} ("[foo]()\n\n[foo]: /url1\n".toList)).toOption = some ("<p><a href=\"\">foo</a></p>\n".toList) := by decide +kernel
/-- example 564 -/
example : (toHtml false {} ("[foo](not a link)\n\n[foo]: /url1\n".toList)).toOption = some ("<p><a href=\"/url1\">foo</a>(not a link)</p>\n".toList) := by decide +kernel
/-- example 565 -/
example : (toHtml false {} ("[foo][bar][baz]\n\n[baz]: /url\n".toList)).toOption = some ("<p>[foo]<a href=\"/url\">bar</a></p>\n".toList) := by decide +kernel
/-- example 566 -/
example : (toHtml false {} ("[foo][bar][baz]\n\n[baz]: /url1\n[bar]: /url2\n".toList)).toOption = some ("<p><a href=\"/url2\">foo</a><a href=\"/url1\">baz</a></p>\n".toList) := by decide +kernel
/-- example 567 -/
example : (toHtml false {} ("[foo][bar][baz]\n\n[baz]: /url1\n[foo]: /url2\n".toList)).toOption = some ("<p>[foo]<a href=\"/url1\">bar</a></p>\n".toList) := by decide +kernel
/-- example 568 -/
example : (toHtml false {} ("![foo](/url \"title\")\n".toList)).toOption = some ("<p><img src=\"/url\" alt=\"foo\" title=\"title\" /></p>\n".toList) := by decide +kernel
/-- example 569 -/
example : (toHtml false {} ("![foo *bar*]\n\n[foo *bar*]: train.jpg \"train & tracks\"\n".toList)).toOption = some ("<p><img src=\"train.jpg\" alt=\"foo bar\" title=\"train &amp; tra".toList ++ "cks\" /></p>\n".toList) := by decide +kernel
/-- example 570 -/
example : (toHtml false {} ("![foo ![bar](/url)](/url2)\n".toList)).toOption = some ("<p><img src=\"/url2\" alt=\"foo bar\" /></p>\n".toList) := by decide +kernel
/-- example 571 -/
example : (toHtml false {} ("![foo [bar](/url)](/url2)\n".toList)).toOption = some ("<p><img src=\"/url2\" alt=\"foo bar\" /></p>\n".toList) := by decide +kernel
/-- example 572 -/
example : (toHtml false {} ("![foo *bar*][]\n\n[foo *bar*]: train.jpg \"train & tracks\"\n".toList)).toOption = some ("<p><img src=\"train.jpg\" alt=\"foo bar\" title=\"train &amp; tra".toList ++ "cks\" /></p>\n".toList) := by decide +kernel
/-- example 573 -/
example : (toHtml false {} ("![foo *bar*][foobar]\n\n[FOOBAR]: train.jpg \"train & tracks\"\n".toList)).toOption = some ("<p><img src=\"train.jpg\" alt=\"foo bar\" title=\"train &amp; tra".toList ++ "cks\" /></p>\n".toList) := by decide +kernel
/-- example 574 -/
example : (toHtml false {} ("![foo](train.jpg)\n".toList)).toOption = some ("<p><img src=\"train.jpg\" alt=\"foo\" /></p>\n".toList) := by decide +kernel
/-- example 575 -/
example : (toHtml false {} ("My ![foo bar](/path/to/train.jpg  \"title\"   )\n".toList)).toOption = some ("<p>My <img src=\"/path/to/train.jpg\" alt=\"foo bar\" title=\"tit".toList ++ "le\" /></p>\n".toList) := by decide +kernel
/-- example 576 -/
example : (toHtml false {} ("![foo](<url>)\n".toList)).toOption = some ("<p><img src=\"url\" alt=\"foo\" /></p>\n".toList) := by decide +kernel
/-- example 577 -/
example : (toHtml false {} ("![](/url)\n".toList)).toOption = some ("<p><img src=\"/url\" alt=\"\" /></p>\n".toList) := by decide +kernel
/-- example 578 -/
example : (toHtml false {} ("![foo][bar]\n\n[bar]: /url\n".toList)).toOption = some ("<p><img src=\"/url\" alt=\"foo\" /></p>\n".toList) := by decide +kernel
/-- example 579 -/
example : (toHtml false {} ("![foo][bar]\n\n[BAR]: /url\n".toList)).toOption = some ("<p><img src=\"/url\" alt=\"foo\" /></p>\n".toList) := by decide +kernel
/-- example 580 -/
example : (toHtml false {} ("![foo][]\n\n[foo]: /url \"title\"\n".toList)).toOption = some ("<p><img src=\"/url\" alt=\"foo\" title=\"title\" /></p>\n".toList) := by decide +kernel
/-- example 581 -/
example : (toHtml false {} ("![*foo* bar][]\n\n[*foo* bar]: /url \"title\"\n".toList)).toOption = some ("<p><img src=\"/url\" alt=\"foo bar\" title=\"title\" /></p>\n".toList) := by decide +kernel
/-- example 582 -/
example : (toHtml false {} ("![Foo][]\n\n[foo]: /url \"title\"\n".toList)).toOption = some ("<p><img src=\"/url\" alt=\"Foo\" title=\"title\" /></p>\n".toList) := by decide +kernel
/-- example 583 -/
example : (toHtml false {} ("![foo] \n[]\n\n[foo]: /url \"title\"\n".toList)).toOption = some ("<p><img src=\"/url\" alt=\"foo\" title=\"title\" />\n[]</p>\n".toList) := by decide +kernel
/-- example 584 -/
example : (toHtml false {} ("![foo]\n\n[foo]: /url \"title\"\n".toList)).toOption = some ("<p><img src=\"/url\" alt=\"foo\" title=\"title\" /></p>\n".toList) := by decide +kernel
/-- example 585 -/
example : (toHtml false {} ("![*foo* bar]\n\n[*foo* bar]: /url \"title\"\n".toList)).toOption = some ("<p><img src=\"/url\" alt=\"foo bar\" title=\"title\" /></p>\n".toList) := by decide +kernel

end CM
