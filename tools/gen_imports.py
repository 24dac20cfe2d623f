#!/usr/bin/env python3
"""Write lean/Verif.lean: import every module of the project."""
import os

lean = os.path.join(os.path.dirname(os.path.dirname(os.path.abspath(__file__))), 'lean')
with open(os.path.join(lean, 'Verif.lean'), 'w') as f:
    for d in ('Model', 'Spec', 'Lemmas', 'Props'):
        for fn in sorted(os.listdir(os.path.join(lean, 'Verif', d))):
            if fn.endswith('.lean'):
                f.write('import Verif.{}.{}\n'.format(d, fn[:-5]))
