"""Compare the model with the renderings recorded in /repo/tests/out (run from /verif/lean).

python3 ../tools/conform.py   (after `lake build`)
"""
import json
import re
import subprocess
import sys

out = []
for f in ['wikipedia', 'mozilla', 'latexml', 'miscellaneous']:
    h = open(f'/repo/tests/out/{f}.html', encoding='utf8').read()
    for a, b in re.findall(r'<tr><td>(.*?)</td><td style="position: relative">(.*?)</td></tr>', h, re.S):
        out.append({"i": a, "o": b})
json.dump(out, open('/tmp/cases.json', 'w'))
import shutil
shutil.copy('../tools/Conform.lean.txt', '/tmp/Conform.lean')
sys.exit(subprocess.call(['lake', 'env', 'lean', '--run', '/tmp/Conform.lean', '/tmp/cases.json']))
